import Verif.Model.CdfReader
/-!
The CDF reader on a file handle with a position, netcdf/cdf/cdf.go:640-744, 887-923. The pure model
(`Model/CdfReader.lean`) says what a call returns as a function of the file; this one follows the
calls of `Seek` and `Read` on the shared handle.

`bufio.Reader` reads ahead: after some bytes have been delivered the position of the handle is
anywhere behind them. `ahead` gives the number of extra bytes read ahead at each step; nothing is
assumed about it.
-/
namespace Verif.Cdf

/-- An open `*os.File`: contents and position. -/
structure Dev where
  data : Bytes
  pos : Nat

/-- netcdf/cdf/cdf.go:211-214 `seekTo`. -/
def Dev.seekTo (d : Dev) (off : Int) : Res Dev :=
  if off < 0 then .err .other else .ok { d with pos := off.toNat }

/-- Reading up to `n` bytes through a fresh `bufio.Reader`: the bytes there are, and the handle
afterwards. -/
def Dev.read (d : Dev) (n ahead : Nat) : Bytes × Dev :=
  ((d.data.drop d.pos).take n,
    { d with pos := d.pos + ((d.data.drop d.pos).take n).length + ahead })

/-- netcdf/cdf/cdf.go:888-905, 922: `io.ReadFull` of `n` bytes from the `io.MultiReader` of seek
readers. Each of them seeks when it is first read. -/
def readMultiIO (vsize : Int) (ahead : Nat → Nat) :
    List (Option Int) → Nat → Dev → Res Bytes × Dev
  | _, 0, d => (.ok [], d)
  | [], _ + 1, d => (.err .eof, d)
  | none :: _, _ + 1, d => (.panic, d)
  | some off :: rs, n + 1, d =>
    if vsize ≤ 0 then readMultiIO vsize ahead rs (n + 1) d
    else
      match d.seekTo off with
      | .err e => (.err e, d)
      | .panic => (.panic, d)
      | .ok d =>
        let (b, d) := d.read (min vsize.toNat (n + 1)) (ahead rs.length)
        match readMultiIO vsize ahead rs (n + 1 - b.length) d with
        | (.ok r, d) => (.ok (b ++ r), d)
        | (.err e, d) => (.err e, d)
        | (.panic, d) => (.panic, d)

/-- netcdf/cdf/cdf.go:688, 730, 887-923 (plain case): `io.ReadFull` of `n` bytes from the handle, at
most `sizeInBytes`, the fill pattern behind the end of the file. -/
def readTailIO (ma : Nat) (sizeInBytes n : Int) (ahead : Nat) (fp : Res Bytes) (d : Dev) :
    Res Bytes × Dev :=
  match fp with
  | .err e => (.err e, d)
  | .panic => (.panic, d)
  | .ok pat =>
    if n < 0 ∨ n > ma then (.panic, d)
    else if sizeInBytes < n then (.err .eof, d)
    else
      (.ok ((d.read n.toNat ahead).1 ++
        fillStream pat (n.toNat - (d.read n.toNat ahead).1.length)), (d.read n.toNat ahead).2)

/-- netcdf/cdf/cdf.go:682-689, 730, plain case: seek, then read. -/
def readPlainIO (ma : Nat) (sizeInBytes n : Int) (ahead : Nat) (fp : Res Bytes) (off : Int)
    (d : Dev) : Res Bytes × Dev :=
  match d.seekTo off with
  | .err e => (.err e, d)
  | .panic => (.panic, d)
  | .ok d => readTailIO ma sizeInBytes n ahead fp d

/-- netcdf/cdf/cdf.go:682-689, 730. -/
def readDataIO (ma : Nat) (h : Hdr) (g : Getter) (start sizeInBytes n : Int) (ahead : Nat → Nat)
    (d : Dev) : Res Bytes × Dev :=
  if g.unlimited = true ∧ h.special = false then
    if h.numRecs * 16 > ma then (.panic, d)
    else if n < 0 ∨ n > ma then (.panic, d)
    else
      readMultiIO g.vr.vsize ahead
        (recordReaders (w64 g.vr.begin_) g.vr.vsize (w64 h.recSize) h.numRecs 0 start sizeInBytes)
        n.toNat d
  else
    readPlainIO ma sizeInBytes n (ahead 0) (fillPattern g.ty g.vr.attrs)
      (w64 (w64 g.vr.begin_ + start)) d

/-- netcdf/cdf/cdf.go:645-744 `getSlice`. -/
def getSliceCapIO (ma : Nat) (h : Hdr) (g : Getter) (begin_ end_ : Int) (ahead : Nat → Nat)
    (d : Dev) : Res CapVal × Dev :=
  if end_ < begin_ then (.err .invalidSlice, d)
  else
    let nChunks := g.nChunks begin_ end_
    let sliceSize := w64 (nChunks * g.chunkSize)
    let start := w64 (w64 (begin_ * g.chunkSize) * g.ty.size)
    let sizeInBytes := w64 (sliceSize * g.ty.size)
    match readDataIO ma h g start sizeInBytes (sliceSize * g.ty.size) ahead d with
    | (.err e, d) => (.err e, d)
    | (.panic, d) => (.panic, d)
    | (.ok b, d) =>
      (convertCap g.ty (g.sliceDims nChunks) (decodeElems g.ty.readKind sliceSize.toNat b), d)

/-- internal/slicer.go:27-31, 79-82, netcdf/cdf/cdf.go:745-772 `getSliceMD`. -/
def getSliceMDIO (ma : Nat) (h : Hdr) (g : Getter) (begin_ end_ : List Int) (ahead : Nat → Nat)
    (d : Dev) : Res GoVal × Dev :=
  if begin_.length ≠ g.dimLengths.length ∨ end_.length ≠ g.dimLengths.length then
    (.err .tooManyDimensions, d)
  else if (begin_.zip end_).any (fun (b, e) => e < b) then (.err .invalidSlice, d)
  else
    match begin_, end_ with
    | b0 :: bs, e0 :: es =>
      let r := getSliceCapIO ma h g b0 e0 ahead d
      match r.1 with
      | .err e => (.err e, r.2)
      | .panic => (.panic, r.2)
      | .ok cv => (sliceRecursive ((0, w64 (e0 - b0)) :: bs.zip es) cv, r.2)
    | _, _ => (.panic, d)

/-- The read calls of the API on an open CDF group. -/
inductive ReadOp
  | getVariable (name : Bytes)
  | values (name : Bytes)
  | getSlice (name : Bytes) (b e : Int)
  | getSliceMD (name : Bytes) (b e : List Int)

/-- What a read call returns; `GetVariable` also has dimensions and attributes. -/
inductive ReadOut
  | var (v : Res Variable)
  | val (v : Res GoVal)

/-- A call on the handle. -/
def runOp (ma : Nat) (h : Hdr) (op : ReadOp) (ahead : Nat → Nat) (d : Dev) : ReadOut × Dev :=
  match op with
  | .getVariable name =>
    match getVarCommon h name with
    | .err e => (.var (.err e), d)
    | .panic => (.var .panic, d)
    | .ok g =>
      match getSliceCapIO ma h g 0 g.length ahead d with
      | (.ok cv, d) => (.var (.ok ⟨cv.erase, g.dimNames, some g.vr.attrs⟩), d)
      | (.err e, d) => (.var (.err e), d)
      | (.panic, d) => (.var .panic, d)
  | .values name =>
    match getVarCommon h name with
    | .err e => (.val (.err e), d)
    | .panic => (.val .panic, d)
    | .ok g =>
      let r := getSliceCapIO ma h g 0 g.length ahead d
      (.val (r.1.map CapVal.erase), r.2)
  | .getSlice name b e =>
    match getVarCommon h name with
    | .err e => (.val (.err e), d)
    | .panic => (.val .panic, d)
    | .ok g =>
      let r := getSliceCapIO ma h g b e ahead d
      (.val (r.1.map CapVal.erase), r.2)
  | .getSliceMD name b e =>
    match getVarCommon h name with
    | .err e => (.val (.err e), d)
    | .panic => (.val .panic, d)
    | .ok g =>
      let r := getSliceMDIO ma h g b e ahead d
      (.val r.1, r.2)

/-- A sequence of calls. -/
def runOps (ma : Nat) (h : Hdr) : List (ReadOp × (Nat → Nat)) → Dev → List ReadOut × Dev
  | [], d => ([], d)
  | (op, ahead) :: ops, d =>
    let (o, d) := runOp ma h op ahead d
    let (os, d) := runOps ma h ops d
    (o :: os, d)

end Verif.Cdf
