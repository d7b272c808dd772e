import Verif.Model.CdfWriter
import Verif.Model.Fill
/-!
Model of netcdf/cdf/cdf.go and internal/slicer.go.

The file is a byte string. `ma` (`maxAlloc`) is the largest number of bytes for which `make`
succeeds; a larger (or negative) request is the run-time panic of `makeslice`. `uint64` values are
natural numbers below `2^64`, `int64` values are integers brought back into range by `w64`.
`bufio.Reader` is transparent. Logging is left out. Only the default `slowConvert = fast` is
modelled; the other one is a test switch that no exported function sets.
-/
namespace Verif.Cdf

/-- Two's complement wrap-around of `int64`. -/
@[irreducible] def w64 (x : Int) : Int :=
  (x + 9223372036854775808) % 18446744073709551616 - 9223372036854775808

/-- Go `uint64(x)` for an `int64`. -/
@[irreducible] def toU64 (x : Int) : Nat := (x % 18446744073709551616).toNat

/-! ### Reading the header -/

/-- A reader of the header: consumes bytes from the front of the file. -/
abbrev P (α : Type) := Bytes → Res (α × Bytes)

instance : Monad P where
  pure a := fun s => .ok (a, s)
  bind p f := fun s =>
    match p s with
    | .ok (a, s') => f a s'
    | .err e => .err e
    | .panic => .panic

/-- `thrower.Throw`. -/
def P.fail {α : Type} (e : Err) : P α := fun _ => .err e
/-- A run-time panic. -/
def P.crash {α : Type} : P α := fun _ => .panic
/-- netcdf/cdf/cdf.go:173-178 `assert`. -/
def P.assert (b : Bool) (e : Err) : P Unit := if b then pure () else P.fail e
/-- Lift an outcome. -/
def P.lift {α : Type} (r : Res α) : P α := fun s =>
  match r with
  | .ok a => .ok (a, s)
  | .err e => .err e
  | .panic => .panic

/-- `binary.Read` of `n` bytes: `io.EOF` or `io.ErrUnexpectedEOF` when there are not enough. -/
def rdN (n : Nat) : P Bytes := fun s =>
  if n ≤ s.length then .ok (s.take n, s.drop n) else .err .eof

/-- `make` of `n` bytes. -/
def mk (ma n : Nat) : P Unit := if n ≤ ma then pure () else P.crash

/-- netcdf/cdf/cdf.go:199-203 `read32`. -/
def read32 : P Nat := do
  let b ← rdN 4
  pure (beDec b)

/-- netcdf/cdf/cdf.go:205-209 `read64`. -/
def read64 : P Nat := do
  let b ← rdN 8
  pure (beDec b)

/-- netcdf/cdf/cdf.go:447, sign extension of 32 bits. -/
def signExt32 (n : Nat) : Nat := if n < 2 ^ 31 then n else n + (2 ^ 64 - 2 ^ 32)

/-- netcdf/cdf/cdf.go:443-450 `readNumber`. -/
def readNumber (version : Nat) : P Nat :=
  if version < 5 then do
    let n ← read32
    pure (signExt32 n)
  else read64

/-- netcdf/cdf/cdf.go:224-226 `roundInt32`, with the wrap-around of `uint64`. -/
def roundInt32 (i : Nat) : Nat := (i + 3) % 2 ^ 64 / 4 * 4

/-- netcdf/cdf/cdf.go:372-378, the search for a NUL in the first `n` bytes; the result is the
name. Running off the end of `b` is an index panic. -/
def scanName (b : Bytes) : Nat → Res Bytes
  | 0 => .ok []
  | n + 1 =>
    match b with
    | [] => .panic
    | c :: cs =>
      if c = 0 then .ok []
      else match scanName cs n with
        | .ok r => .ok (c :: r)
        | .err e => .err e
        | .panic => .panic

/-- netcdf/cdf/cdf.go:369-380 `readName`. -/
def readName (ma version : Nat) : P Bytes := do
  let nameLen ← readNumber version
  mk ma (roundInt32 nameLen)
  let b ← rdN (roundInt32 nameLen)
  P.lift (scanName b nameLen)

/-- netcdf/cdf/cdf.go:27-42. -/
def NcType.ofCode : Nat → Option NcType
  | 1 => some .byte | 2 => some .char | 3 => some .short | 4 => some .int | 5 => some .float
  | 6 => some .double | 7 => some .ubyte | 8 => some .ushort | 9 => some .uint
  | 10 => some .int64 | 11 => some .uint64 | _ => none

/-- `binary.Read` into a slice of numbers of `n` elements of kind `k`. -/
def decodeElems (k : Kind) : Nat → Bytes → List GoVal
  | 0, _ => []
  | n + 1, b => .num k (beDec (b.take k.size)) :: decodeElems k n (b.drop k.size)

/-- The Go element kind in which the data of a type is read; characters are bytes. -/
def NcType.readKind (ty : NcType) : Kind := ty.kind.getD .u8

/-- netcdf/cdf/cdf.go:328-332: a slice of one element becomes a scalar. -/
def unwrapOne : GoVal → GoVal
  | .slice _ [x] => x
  | v => v

/-- netcdf/cdf/cdf.go:228-334 `getAttr`. -/
def getAttr (ma version : Nat) : P (Bytes × GoVal) := do
  let name ← readName ma version
  let vType ← read32
  let nvars ← readNumber version
  match NcType.ofCode vType with
  | none => P.fail .corruptedFile
  | some ty =>
    P.assert (!ty.isV5 || decide (5 ≤ version)) .corruptedFile
    mk ma (nvars * ty.size)
    let b ← rdN (nvars * ty.size)
    let _ ← rdN ((4 - nvars * ty.size % 4) % 4)
    match ty.kind with
    | none => pure (name, .str b)
    | some k => pure (name, unwrapOne (.slice (.num k) (decodeElems k nvars b)))

/-- netcdf/cdf/cdf.go:336-353 `getNElems`. -/
def getNElems (version expected : Nat) : P Nat := do
  let fieldType ← read32
  let nElems ← readNumber version
  if fieldType = 0 then do
    P.assert (nElems == 0) .corruptedFile
    pure nElems
  else if fieldType = expected then pure nElems
  else P.fail .corruptedFile

/-- A counted loop that collects results. -/
def P.repeat {α : Type} (p : P α) : Nat → P (List α)
  | 0 => pure []
  | n + 1 => do
    let a ← p
    let as ← P.repeat p n
    pure (a :: as)

/-- netcdf/cdf/cdf.go:355-367 `getAttrList`. -/
def getAttrList (ma version : Nat) : P (OMap GoVal) := do
  let nElems ← getNElems version fieldAttribute
  let kvs ← P.repeat (getAttr ma version) nElems
  P.lift (OMap.new (kvs.map (·.1)) (kvs.foldl (fun m kv => GoMap.set m kv.1 kv.2) []))

/-- netcdf/cdf/cdf.go:46-49 `dimension`. -/
structure Dim where
  name : Bytes
  length : Nat
deriving DecidableEq

/-- netcdf/cdf/cdf.go:51-58 `variable`. `vsize` is the int64 of `usedVsize`. -/
structure VarRec where
  name : Bytes
  dimids : List Nat
  attrs : OMap GoVal
  vType : Nat
  vsize : Int
  begin_ : Nat

/-- netcdf/cdf/cdf.go:382-386 `getDim`. -/
def getDim (ma version : Nat) : P Dim := do
  let name ← readName ma version
  let len ← readNumber version
  pure ⟨name, len⟩

/-- netcdf/cdf/cdf.go:388-390 `hasUnlimitedDimension`; an id out of range is an index panic. -/
def hasUnlimited (dims : List Dim) : List Nat → Res Bool
  | [] => .ok false
  | id :: _ =>
    match dims[id]? with
    | none => .panic
    | some d => .ok (d.length == 0)

/-- netcdf/cdf/cdf.go:409-412: product of the lengths of the dimensions, wrapping. -/
def mulDims (dims : List Dim) : List Nat → Nat → Res Nat
  | [], n => .ok n
  | id :: ids, n =>
    match dims[id]? with
    | none => .panic
    | some d => mulDims dims ids (n * d.length % 2 ^ 64)

/-- netcdf/cdf/cdf.go:406-430: the size used for the variable and what it adds to `recSize`. -/
def usedSize (dims : List Dim) (dimids : List Nat) (vType vsize : Nat) : Res (Nat × Nat) := do
  let u ← hasUnlimited dims dimids
  if u then
    let n ← mulDims dims dimids.tail 1
    match NcType.ofCode vType with
    | none => .err .unknownType
    | some ty => .ok (n * ty.size % 2 ^ 64, vsize)
  else .ok (vsize, 0)

/-- netcdf/cdf/cdf.go:431-439, the width of the offset. -/
def readOffset (version : Nat) : P Nat :=
  if version = 1 then read32
  else if version = 2 ∨ version = 5 then read64
  else P.fail .internal

/-- netcdf/cdf/cdf.go:392-441 `getVar`; also returns what it adds to `recSize`. -/
def getVar (ma version : Nat) (dims : List Dim) : P (VarRec × Nat) := do
  let name ← readName ma version
  let nDims ← readNumber version
  P.assert (decide (nDims ≤ 1024)) .tooManyDimensions
  let dimids ← P.repeat (readNumber version) nDims
  let attrs ← getAttrList ma version
  let vType ← read32
  let vsize ← readNumber version
  let (used, add) ← P.lift (usedSize dims dimids vType vsize)
  let offset ← readOffset version
  pure (⟨name, dimids, attrs, vType, w64 used, offset⟩, add)

/-- State of the loop at netcdf/cdf/cdf.go:497-514. -/
structure VarsAcc where
  vars : OMap VarRec
  recSize : Nat
  recVars : List VarRec

/-- The loop at netcdf/cdf/cdf.go:501-514. `recVars` are the record variables met, in order. -/
def readVars (ma version : Nat) (dims : List Dim) : Nat → VarsAcc → P VarsAcc
  | 0, acc => pure acc
  | n + 1, acc => do
    let (v, add) ← getVar ma version dims
    if (acc.vars.get v.name).isSome then P.fail .duplicateVariable
    else
      let u ← P.lift (hasUnlimited dims v.dimids)
      readVars ma version dims n
        { vars := acc.vars.add v.name v
          recSize := (acc.recSize + add) % 2 ^ 64
          recVars := if u then acc.recVars ++ [v] else acc.recVars }

/-- netcdf/cdf/cdf.go:68-80 `CDF`, what `readHeader` sets. -/
structure Hdr where
  version : Nat
  numRecs : Nat
  recSize : Nat
  dims : List Dim
  attrs : OMap GoVal
  vars : OMap VarRec
  special : Bool

/-- netcdf/cdf/cdf.go:515-536: the record size and the special case of a single small record
variable. -/
def finishRecs (acc : VarsAcc) : Res (Nat × Bool) :=
  match acc.recVars with
  | [] => if acc.recSize = 0 then .ok (0, false) else .err .internal
  | [v] =>
    match NcType.ofCode v.vType with
    | some .byte | some .ubyte | some .char => .ok (toU64 v.vsize, true)
    | some .short | some .ushort => .ok (2 * toU64 v.vsize % 2 ^ 64, true)
    | _ => .ok (acc.recSize, false)
  | _ => .ok (roundInt32 acc.recSize, false)

/-- netcdf/cdf/cdf.go:44. -/
def ncpKey : Bytes := ascii "_NCProperties"

/-- netcdf/cdf/cdf.go:479-537, after the version and the number of records. -/
def readLists (ma version numRecs : Nat) : P Hdr := do
  let nDims ← getNElems version fieldDimension
  P.assert (decide (nDims ≤ 1024)) .tooManyDimensions
  let dims ← P.repeat (getDim ma version) nDims
  let attrs ← getAttrList ma version
  let nVars ← getNElems version fieldVariable
  let acc ← readVars ma version dims nVars ⟨OMap.empty, 0, []⟩
  let (recSize, special) ← P.lift (finishRecs acc)
  pure ⟨version, numRecs, recSize, dims, attrs.hide ncpKey, acc.vars, special⟩

/-- netcdf/cdf/cdf.go:452-538 `readHeader`. -/
def readHeader (ma : Nat) : P Hdr := do
  let b ← rdN 4
  if b.take 3 ≠ ascii "CDF" then P.fail .notCDF
  else
    let version := (b.getD 3 0).toNat
    if version = 1 ∨ version = 2 ∨ version = 5 then do
      let numRecs ← readNumber version
      P.assert (numRecs != 2 ^ 64 - 1) .noStreamingDimensions
      readLists ma version numRecs
    else P.fail .unknownVersion

/-- netcdf/cdf/cdf.go:584-595 `New` (and 570-580 `Open`): the handle, without file and reference
count, which Model/CdfHandle.lean has. -/
def openCdf (ma : Nat) (file : Bytes) : Res Hdr :=
  match readHeader ma file with
  | .ok (h, _) => .ok h
  | .err e => .err e
  | .panic => .panic

/-- netcdf/cdf/cdf.go:103-105 `ListVariables`. -/
def Hdr.listVariables (h : Hdr) : List Bytes := h.vars.visibleKeys
/-- netcdf/cdf/cdf.go:113-119 `ListDimensions`. -/
def Hdr.listDimensions (h : Hdr) : List Bytes := h.dims.map (·.name)
/-- netcdf/cdf/cdf.go:122-129 `GetDimension`. -/
def Hdr.getDimension (h : Hdr) (name : Bytes) : Option Nat :=
  (h.dims.find? (fun d => d.name == name)).map (·.length)
/-- netcdf/cdf/cdf.go:598-600 `Attributes`. -/
def Hdr.attributes (h : Hdr) : OMap GoVal := h.attrs

/-! ### Variables -/

/-- netcdf/cdf/cdf.go:781-820 `goType`. -/
def goType : NcType → String
  | .byte => "int8" | .char => "string" | .short => "int16" | .int => "int32"
  | .float => "float32" | .double => "float64" | .ubyte => "uint8" | .ushort => "uint16"
  | .uint => "uint32" | .uint64 => "uint64" | .int64 => "int64"

/-- netcdf/cdf/cdf.go:822-861 `cdlType`. -/
def cdlType : NcType → String
  | .byte => "byte" | .char => "char" | .short => "short" | .int => "int"
  | .float => "float" | .double => "double" | .ubyte => "ubyte" | .ushort => "ushort"
  | .uint => "uint" | .uint64 => "uint64" | .int64 => "int64"

/-- The variables captured by the closures of `getVarCommon`, netcdf/cdf/cdf.go:602-644, and the
fields of `internal.slice` (internal/slicer.go:10-19). -/
structure Getter where
  vr : VarRec
  ty : NcType
  dimLengths : List Nat
  dimNames : List Bytes
  unlimited : Bool
  chunkSize : Int
  length : Int

/-- The loop at netcdf/cdf/cdf.go:613-631 from index `i` on. -/
def varDims (h : Hdr) : List Nat → Nat → Res (List (Nat × Bytes) × Bool)
  | [], _ => .ok ([], false)
  | id :: ids, i =>
    match h.dims[id]? with
    | none => .err .internal
    | some d =>
      if d.length = 0 ∧ i ≠ 0 then .err .corruptedFile
      else do
        let (r, u) ← varDims h ids (i + 1)
        pure ((if d.length = 0 then h.numRecs else d.length, d.name) :: r, d.length == 0 || u)

/-- netcdf/cdf/cdf.go:611, 630: `totalSize`. -/
def totalSize : List Nat → Int → Int
  | [], n => n
  | d :: ds, n => totalSize ds (w64 (n * w64 d))

/-- netcdf/cdf/cdf.go:602-644 and 773-778, `getVarCommon` (`GetVarGetter`, 866-869). -/
def getVarCommon (h : Hdr) (name : Bytes) : Res Getter :=
  match h.vars.get name with
  | none => .err .notFound
  | some v => do
    let (ds, unlimited) ← varDims h v.dimids 0
    let dimLengths := ds.map (·.1)
    let total := totalSize dimLengths 1
    match NcType.ofCode v.vType with
    | none => .err .unknownType
    | some ty =>
      let (chunkSize, length) : Int × Int := match dimLengths with
        | [] => (total, 1)
        | d :: _ => if d = 0 then (total, 0) else (w64 (total.tdiv (w64 d)), w64 d)
      pure { vr := v, ty := ty, dimLengths := dimLengths, dimNames := ds.map (·.2),
             unlimited := unlimited, chunkSize := chunkSize, length := length }

/-- netcdf/cdf/cdf.go:773-776, internal/slicer.go:43-45 `Shape`. -/
def Getter.shape (g : Getter) : List Int := g.dimLengths.map (fun (d : Nat) => w64 d)

/-- internal/fillvalue.go:10-22, the bytes of the standard fill values as
netcdf/cdf/cdf.go:1184-1284 stores them. -/
def defaultFill : NcType → Bytes
  | .byte => beEnc 1 (256 - 127)
  | .char => beEnc 1 0
  | .short => beEnc 2 (2 ^ 16 - 32767)
  | .int => beEnc 4 (2 ^ 32 - 2147483647)
  | .float => beEnc 4 0x7cf00000
  | .double => beEnc 8 0x479e000000000000
  | .ubyte => beEnc 1 255
  | .ushort => beEnc 2 65535
  | .uint => beEnc 4 4294967295
  | .int64 => beEnc 8 (2 ^ 64 - 9223372036854775806)
  | .uint64 => beEnc 8 0xfffffffffffffffe

/-- netcdf/cdf/cdf.go:1173-1181, 1188 etc.: bytes of the user's fill value; a value of another type
than the variable's is a failed type assertion. -/
def userFill (ty : NcType) : GoVal → Res Bytes
  | .num k bits => if k = ty.readKind then .ok (beEnc k.size bits) else .panic
  | _ => .panic

/-- netcdf/cdf/cdf.go:1172-1287 `makeFillValueReader`: the pattern. -/
def fillPattern (ty : NcType) (attrs : OMap GoVal) : Res Bytes :=
  match attrs.get (ascii "_FillValue") with
  | none => .ok (defaultFill ty)
  | some (.slice _ [x]) => userFill ty x
  | some (.slice _ _) => .err .fillValue
  | some v => userFill ty v

/-- netcdf/cdf/cdf.go:211-214 `seekTo` followed by reading: what the file holds from there on. A
negative offset is an error of `Seek`. -/
def seekFrom (file : Bytes) (off : Int) : Res Bytes :=
  if off < 0 then .err .other else .ok (file.drop off.toNat)

/-- netcdf/cdf/cdf.go:910-921, the loop of `newRecordReader` from record `i` on; `none` is a nil
reader, `some off` a limited reader of `vsize` bytes at `off`. -/
def recordReaders (beginV vsize recSize : Int) : Nat → Nat → Int → Int → List (Option Int)
  | 0, _, _, _ => []
  | n + 1, i, start, size =>
    if size > 0 then
      let increment := w64 (i * recSize)
      if start > increment then none :: recordReaders beginV vsize recSize n (i + 1) start size
      else
        some (w64 (w64 (beginV + increment) + start)) ::
          recordReaders beginV vsize recSize n (i + 1) 0 (w64 (size - vsize))
    else List.replicate (n + 1) none

/-- `io.ReadFull` of `n` bytes from the `io.MultiReader` of netcdf/cdf/cdf.go:922. A reader is
touched only when bytes are still missing; a nil reader then is a nil dereference. -/
def readMulti (file : Bytes) (vsize : Int) : List (Option Int) → Nat → Res Bytes
  | _, 0 => .ok []
  | [], _ + 1 => .err .eof
  | none :: _, _ + 1 => .panic
  | some off :: rs, n + 1 =>
    if vsize ≤ 0 then readMulti file vsize rs (n + 1)
    else do
      let s ← seekFrom file off
      let b := (s.take vsize.toNat).take (n + 1)
      let r ← readMulti file vsize rs (n + 1 - b.length)
      pure (b ++ r)

/-- netcdf/cdf/cdf.go:682-689, 730: open the reader and read `n` bytes. -/
def readData (ma : Nat) (h : Hdr) (file : Bytes) (g : Getter) (start sizeInBytes : Int) (n : Int) :
    Res Bytes :=
  if g.unlimited = true ∧ h.special = false then
    if h.numRecs * 16 > ma then .panic
    else if n < 0 ∨ n > ma then .panic
    else
      readMulti file g.vr.vsize
        (recordReaders (w64 g.vr.begin_) g.vr.vsize (w64 h.recSize) h.numRecs 0 start sizeInBytes)
        n.toNat
  else do
    let s ← seekFrom file (w64 (w64 g.vr.begin_ + start))
    let pat ← fillPattern g.ty g.vr.attrs
    if n < 0 ∨ n > ma then .panic
    else if sizeInBytes < n then .err .eof
    else
      let b := s.take n.toNat
      pure (b ++ fillStream pat (n.toNat - b.length))

/-- A value with the capacity of its innermost slices, which `internal.SliceMD` can see: the rows
made at netcdf/cdf/cdf.go:1004 and 1117 keep the rest of the data behind their end. -/
inductive CapVal
  | leaf (v : GoVal)
  | row (k : Kind) (xs tail : List GoVal)
  | slice (elem : GoTy) (xs : List CapVal)

mutual
/-- The value without the capacity. -/
def CapVal.erase : CapVal → GoVal
  | .leaf v => v
  | .row k xs _ => .slice (.num k) xs
  | .slice e xs => .slice e (CapVal.eraseList xs)
/-- The values without the capacity. -/
def CapVal.eraseList : List CapVal → List GoVal
  | [] => []
  | x :: xs => x.erase :: CapVal.eraseList xs
end

/-- `[]byte` to string. -/
def bytesOf : List GoVal → Bytes
  | [] => []
  | .num _ b :: xs => UInt8.ofNat b :: bytesOf xs
  | _ :: xs => 0 :: bytesOf xs

/-- Go `string(b)` for a byte: the UTF-8 encoding of the code point. -/
def stringOfByte (b : UInt8) : Bytes :=
  if b.toNat < 128 then [b]
  else [UInt8.ofNat (192 + b.toNat / 64), UInt8.ofNat (128 + b.toNat % 64)]

/-- netcdf/cdf/cdf.go:998-1101, the loop that cuts rows of length `d1` off the data. -/
def cutRows (ty : NcType) (d1 : Nat) : Nat → List GoVal → Res (List CapVal)
  | 0, _ => .ok []
  | n + 1, v =>
    if v.length < d1 then .panic
    else do
      let row := v.take d1
      let rest ← cutRows ty d1 n (v.drop d1)
      pure ((match ty.kind with
        | none => .leaf (.str (bytesOf row))
        | some k => .row k row (v.drop d1)) :: rest)

/-- Nested slice type. -/
def nestTy : Nat → GoTy → GoTy
  | 0, t => t
  | n + 1, t => nestTy n (.slice t)

/-- netcdf/cdf/cdf.go:925-934 `emptySlice` for `n ≥ 1` dimensions. -/
def emptySlice (k : Kind) (n : Nat) : CapVal := .slice (nestTy (n - 1) (.num k)) []

/-- Outcomes in sequence. -/
def seqRes {α : Type} : List (Res α) → Res (List α)
  | [] => .ok []
  | r :: rs => do
    let a ← r
    let as ← seqRes rs
    pure (a :: as)

/-- Row type of the fast 2-D conversion. -/
def rowTy (ty : NcType) : GoTy :=
  match ty.kind with
  | none => .str
  | some k => .slice (.num k)

/-- netcdf/cdf/cdf.go:1129-1132. -/
def innerLength (ds : List Nat) : Nat := ds.foldl (fun n d => n * d % 2 ^ 64) 1

/-- netcdf/cdf/cdf.go:936-1140 `convert`, fast version. The slices of slices made at 1002 etc. and
1127 are not subject to the allocation limit (they are never longer than the data unless the loop
that fills them panics anyway). -/
def convertCap (ty : NcType) : List Nat → List GoVal → Res CapVal
  | [], data =>
    match data with
    | [] => .panic
    | x :: _ =>
      match ty.kind with
      | none => .ok (.leaf (.str (stringOfByte ((bytesOf [x]).getD 0 0))))
      | some _ => .ok (.leaf x)
  | [_], data =>
    match ty.kind with
    | none => .ok (.leaf (.str (bytesOf data)))
    | some k => .ok (.row k data [])
  | [d0, d1], data => do
    let rows ← cutRows ty d1 d0 data
    pure (.slice (rowTy ty) rows)
  | d0 :: d1 :: d2 :: ds, data =>
    if data.length = 0 then .ok (emptySlice ty.readKind (ds.length + 3))
    else if d0 = 0 ∨ d0 ≥ 2 ^ 63 then .panic
    else do
      let rest := d1 :: d2 :: ds
      let vals ← seqRes ((List.range d0).map (fun i =>
        let off := i * innerLength rest
        if off > data.length then .panic else convertCap ty rest (data.drop off)))
      match vals with
      | [] => .panic
      | v0 :: vs =>
        if vs.all (fun v => v.erase.ty == v0.erase.ty) then
          pure (.slice v0.erase.ty (v0 :: vs))
        else .panic

/-- netcdf/cdf/cdf.go:649-659, the number of rows to read. -/
def Getter.nChunks (g : Getter) (begin_ end_ : Int) : Int :=
  match g.dimLengths with
  | [] => 1
  | d :: _ => if d = 0 then 0 else w64 (end_ - begin_)

/-- netcdf/cdf/cdf.go:734-738, the lengths for the conversion. -/
def Getter.sliceDims (g : Getter) (nChunks : Int) : List Nat :=
  match g.dimLengths with
  | [] => []
  | _ :: ds => toU64 nChunks :: ds

/-- netcdf/cdf/cdf.go:645-744 `getSlice`, with the capacities. Errors are those that it returns and
those that are thrown inside. -/
def getSliceCap (ma : Nat) (h : Hdr) (file : Bytes) (g : Getter) (begin_ end_ : Int) :
    Res CapVal :=
  if end_ < begin_ then .err .invalidSlice
  else do
    let nChunks := g.nChunks begin_ end_
    let sliceSize := w64 (nChunks * g.chunkSize)
    let start := w64 (w64 (begin_ * g.chunkSize) * g.ty.size)
    let sizeInBytes := w64 (sliceSize * g.ty.size)
    let b ← readData ma h file g start sizeInBytes (sliceSize * g.ty.size)
    let data := decodeElems g.ty.readKind sliceSize.toNat b
    convertCap g.ty (g.sliceDims nChunks) data

/-- internal/slicer.go:21-25 `GetSlice`, which recovers errors that are thrown inside. -/
def getSlice (ma : Nat) (h : Hdr) (file : Bytes) (g : Getter) (begin_ end_ : Int) : Res GoVal :=
  (getSliceCap ma h file g begin_ end_).map CapVal.erase

/-- internal/slicer.go:33-37 `Values`. -/
def values (ma : Nat) (h : Hdr) (file : Bytes) (g : Getter) : Res GoVal :=
  getSlice ma h file g 0 g.length

/-- netcdf/cdf/cdf.go:872-886 `GetVariable`. -/
def getVariable (ma : Nat) (h : Hdr) (file : Bytes) (name : Bytes) : Res Variable := do
  let g ← getVarCommon h name
  let v ← (getSliceCap ma h file g 0 g.length).map CapVal.erase
  pure ⟨v, g.dimNames, some g.vr.attrs⟩

/-- `reflect.Value.Slice(b, e)` on a slice of which `xs` is the whole capacity. -/
def reflectSlice {α : Type} (xs : List α) (b e : Int) : Res (List α) :=
  if 0 ≤ b ∧ b ≤ e ∧ e ≤ xs.length then .ok ((xs.drop b.toNat).take (e - b).toNat) else .panic

/-- internal/slicer.go:84-109 `sliceRecursive`; the number of dimensions left is the length of the
list of ranges. -/
def sliceRecursive : List (Int × Int) → CapVal → Res GoVal
  | [], v => .ok v.erase
  | (b, e) :: rs, v =>
    match v with
    | .leaf x => .ok x
    | .row k xs tail => do
      let s ← reflectSlice (xs ++ tail) b e
      pure (.slice (.num k) s)
    | .slice t xs => do
      let s ← reflectSlice xs b e
      let s' ← seqRes (s.map (sliceRecursive rs))
      pure (.slice t s')

/-- netcdf/cdf/cdf.go:745-772 `getSliceMD` (internal/slicer.go:27-31, 79-82). -/
def getSliceMD (ma : Nat) (h : Hdr) (file : Bytes) (g : Getter) (begin_ end_ : List Int) :
    Res GoVal :=
  if begin_.length ≠ g.dimLengths.length ∨ end_.length ≠ g.dimLengths.length then
    .err .tooManyDimensions
  else if (begin_.zip end_).any (fun (b, e) => e < b) then .err .invalidSlice
  else
    match begin_, end_ with
    | b0 :: bs, e0 :: es => do
      let partialData ← getSliceCap ma h file g b0 e0
      sliceRecursive ((0, w64 (e0 - b0)) :: bs.zip es) partialData
    | _, _ => .panic

end Verif.Cdf
