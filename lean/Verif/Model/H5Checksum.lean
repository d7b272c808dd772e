import Verif.Model.H5Base
/-!
Model of netcdf/hdf5/checksum.go and of the verification in netcdf/hdf5/hdf5.go:339-367.
-/
namespace Verif.H5

/-- netcdf/hdf5/checksum.go:9-11 `rot`. -/
def rot (x k : UInt32) : UInt32 := x <<< k ||| x >>> (32 - k)

/-- netcdf/hdf5/checksum.go:13-37 `mix`. -/
def mix (s : UInt32 × UInt32 × UInt32) : UInt32 × UInt32 × UInt32 :=
  let (a, b, c) := s
  let a := a - c; let a := a ^^^ rot c 4; let c := c + b
  let b := b - a; let b := b ^^^ rot a 6; let a := a + c
  let c := c - b; let c := c ^^^ rot b 8; let b := b + a
  let a := a - c; let a := a ^^^ rot c 16; let c := c + b
  let b := b - a; let b := b ^^^ rot a 19; let a := a + c
  let c := c - b; let c := c ^^^ rot b 4; let b := b + a
  (a, b, c)

/-- netcdf/hdf5/checksum.go:39-60 `final`; only `c` is used afterwards. -/
def final (s : UInt32 × UInt32 × UInt32) : UInt32 :=
  let (a, b, c) := s
  let c := c ^^^ b; let c := c - rot b 14
  let a := a ^^^ c; let a := a - rot c 11
  let b := b ^^^ a; let b := b - rot a 25
  let c := c ^^^ b; let c := c - rot b 16
  let a := a ^^^ c; let a := a - rot c 4
  let b := b ^^^ a; let b := b - rot a 14
  let c := c ^^^ b; c - rot b 24

/-- netcdf/hdf5/checksum.go:71-93, the loop and the switch; an index out of range is a panic. -/
def hashLoop (nBytes : Nat) (a b c : UInt32) (vals : List UInt32) : Res UInt32 :=
  if 12 < nBytes then
    match vals with
    | x :: y :: z :: vals =>
      let s := mix (a + x, b + y, c + z)
      hashLoop (nBytes - 12) s.1 s.2.1 s.2.2 vals
    | _ => .panic
  else if 9 ≤ nBytes then
    match vals with
    | x :: y :: z :: _ => .ok (final (a + x, b + y, c + z))
    | _ => .panic
  else if 5 ≤ nBytes then
    match vals with
    | x :: y :: _ => .ok (final (a + x, b + y, c))
    | _ => .panic
  else if 1 ≤ nBytes then
    match vals with
    | x :: _ => .ok (final (a + x, b, c))
    | _ => .panic
  else .ok c
termination_by nBytes

/-- netcdf/hdf5/checksum.go:64-94 `hashInts`. -/
def hashInts (vals : List UInt32) (nBytes : UInt32) : Res UInt32 :=
  let nBytes := if nBytes = 0 then UInt32.ofNat (4 * vals.length) else nBytes
  let a := 0xdeadbeef + nBytes
  hashLoop nBytes.toNat a a a vals

/-- `binary.LittleEndian.Uint32` of the first four bytes. -/
def leWord (b : Bytes) : UInt32 := UInt32.ofNat (leDec (b.take 4))

/-- netcdf/hdf5/checksum.go:96-108 `checksum`, used by the writer. -/
def checksum (data : Bytes) : Res UInt32 :=
  let n := data.length
  let vals := (List.range (n / 4)).map fun i => leWord (data.drop (i * 4))
  let last :=
    if 0 < n % 4 then [leWord (data.drop (n - n % 4) ++ List.replicate (4 - n % 4) 0)] else []
  hashInts (vals ++ last) (UInt32.ofNat n)

/-- `binary.Read` into a `[]uint32` of `n` elements. -/
def wordsOf : Nat → Bytes → List UInt32
  | 0, _ => []
  | n + 1, b => leWord b :: wordsOf n (b.drop 4)

/-- netcdf/hdf5/hdf5.go:347-367 `computeChecksumStream`, used by the reader. -/
def computeChecksumStream (blen : Nat) : P UInt32 := do
  let b ← rdN (4 * (blen / 4))
  let last ← if 0 < blen % 4 then do
      let r ← rdN (blen % 4)
      pure [leWord (r ++ List.replicate (4 - blen % 4) 0)]
    else pure []
  P.lift (hashInts (wordsOf (blen / 4) b ++ last) (UInt32.ofNat blen))

/-- netcdf/hdf5/hdf5.go:339-345 `checkChecksum`. -/
def checkChecksum (file : Bytes) (addr blen : Nat) : Res Unit :=
  match newSeek file addr (blen + 4) with
  | .err e => .err e
  | .panic => .panic
  | .ok s =>
    match (do
      let hash ← computeChecksumStream blen
      let sum ← read32
      P.assert (hash.toNat == sum) .assertFail : P Unit) s with
    | .ok _ => .ok ()
    | .err e => .err e
    | .panic => .panic

end Verif.H5
