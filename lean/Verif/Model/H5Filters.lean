import Verif.Model.H5Base
/-!
Filters of netcdf/hdf5/readers.go: fletcher32 (57-142), shuffle (291-335).
-/
namespace Verif.H5

/-! ### Shuffle -/

/-- netcdf/hdf5/readers.go:303-307, the two loops filling `tmp`. -/
def unshuffleLoop (val : Bytes) (n nelems : Nat) (tmp : Bytes) : Bytes :=
  (List.range n).foldl (fun tmp i =>
    (List.range nelems).foldl (fun tmp j =>
      tmp.set (j * n + i) (val.getD (i * nelems + j) 0)) tmp) tmp

/-- netcdf/hdf5/readers.go:295-309 `unshuffle`; `n = 0` is the run-time panic of the division. -/
def unshuffle (val : Bytes) (n : Nat) : Res Bytes :=
  if n = 1 then .ok val
  else if n = 0 then .panic
  else .ok (unshuffleLoop val n (val.length / n) (List.replicate val.length 0))

/-- netcdf/hdf5/readers.go:50-55 `unshuffleReader`: `src` is what the underlying reader still
gives. -/
structure Unsh where
  src : Bytes
  b : Option Bytes
  size : Nat
  param : Nat

/-- netcdf/hdf5/readers.go:311-335 `Read` into a buffer of `len` bytes; the result is the bytes, or
`io.EOF` for none at the end. `readAll` (netcdf/hdf5/hdf5.go) fills the buffer as far as the source
goes; the rest stays zero. -/
def Unsh.read (r : Unsh) (len : Nat) : Res (Bytes × Unsh) :=
  if r.size = 0 then .err .eof
  else
    let thisLen := if len > r.size then r.size else len
    match (match r.b with
      | some b => Res.ok (b, r.src)
      | none =>
        match unshuffle (r.src.take r.size) r.param with
        | .ok u => .ok (u ++ List.replicate (r.size - (r.src.take r.size).length) 0,
            r.src.drop r.size)
        | .err e => .err e
        | .panic => .panic) with
    | .ok (b, src) => .ok (b.take thisLen, { r with src, b := some (b.drop thisLen), size := r.size - thisLen })
    | .err e => .err e
    | .panic => .panic

/-! ### Fletcher-32 -/

/-- netcdf/hdf5/readers.go:57-67 `fletcher`: `src` is what the underlying reader still gives. -/
structure Fletcher where
  src : Bytes
  size : Nat
  count : Nat
  sum1 : Nat
  sum2 : Nat
  part : UInt8
  checksum : Option Nat

/-- netcdf/hdf5/readers.go:70-82 `fletcher32Reader`. -/
def fletcher32Reader (src : Bytes) (size : Nat) : Res Fletcher :=
  if 4 ≤ size then .ok ⟨src, size, 0, 0, 0, 0, none⟩ else .err .assertFail

/-- netcdf/hdf5/readers.go:105-108 `addToSums`. -/
def addToSums (s : Nat × Nat) (val : Nat) : Nat × Nat :=
  let sum1 := (s.1 + val) % 65535
  (sum1, (sum1 + s.2) % 65535)

/-- netcdf/hdf5/readers.go:109-125, the loop over the bytes read; `c` is `fl.count + i`. -/
def fletcherLoop (c : Nat) (b : Bytes) (s : Nat × Nat) (part : UInt8) : (Nat × Nat) × UInt8 :=
  match b with
  | [] => (s, part)
  | x :: rest =>
    if c % 2 = 1 then
      fletcherLoop (c + 1) rest (addToSums s (part.toNat * 256 + x.toNat)) part
    else
      match rest with
      | [] => (s, x)
      | y :: rest => fletcherLoop (c + 2) rest (addToSums s (x.toNat * 256 + y.toNat)) part
termination_by b.length

/-- netcdf/hdf5/readers.go:133-136: the stored sum, read once. -/
def Fletcher.stored (fl : Fletcher) : Res (Nat × Bytes) :=
  match fl.checksum with
  | some c => .ok (c, fl.src)
  | none => if 4 ≤ fl.src.length then .ok (leDec (fl.src.take 4), fl.src.drop 4) else .err .eof

/-- netcdf/hdf5/readers.go:126-142, after the loop: at the end of the data the sum is compared. -/
def Fletcher.finish (fl : Fletcher) : Res Fletcher :=
  if fl.count = fl.size - 4 then
    let s := if (fl.size - 4) % 2 = 1 then addToSums (fl.sum1, fl.sum2) (fl.part.toNat * 256)
      else (fl.sum1, fl.sum2)
    let calced := s.2 * 65536 + s.1
    match fl.stored with
    | .ok (c, src) =>
      if calced = c then .ok { fl with src, sum1 := s.1, sum2 := s.2, checksum := some c }
      else .err .checksum
    | .err e => .err e
    | .panic => .panic
  else .ok fl

/-- netcdf/hdf5/readers.go:96-142 `Read` into a buffer of `len` bytes. The underlying reader may
give fewer bytes than asked for: it gives at most `give`. -/
def Fletcher.read (fl : Fletcher) (len give : Nat) : Res (Bytes × Fletcher) :=
  let thisLen := if len + fl.count > fl.size - 4 then fl.size - 4 - fl.count else len
  let b := fl.src.take (min thisLen give)
  let r := fletcherLoop fl.count b (fl.sum1, fl.sum2) fl.part
  let fl' : Fletcher := { fl with
    src := fl.src.drop b.length, count := fl.count + b.length,
    sum1 := r.1.1, sum2 := r.1.2, part := r.2 }
  match fl'.finish with
  | .ok fl'' => .ok (b, fl'')
  | .err e => .err e
  | .panic => .panic

end Verif.H5
