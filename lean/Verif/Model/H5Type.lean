import Verif.Model.H5Base
/-!
Datatype messages: netcdf/hdf5/writer_utils.go:35-313, 531-563 and the `parse` functions of
netcdf/hdf5/types.go, fixedPoint.go, floatingPoint.go, string.go, opaque.go, compound.go,
reference.go, enum.go, vlen.go, array.go.
-/
namespace Verif.H5

/-! ### Writing -/

/-- The Go types the writer has a datatype for. `compound`, `enum` and `opaque` are unexported types
of the package, whose values a user gets by reading a file. A compound has the names and the types
of its members. The values of the members of an `enum` are bit patterns. -/
inductive WTy
  | num (k : Kind)
  | fixStr (n : Nat)
  | vlenStr
  | vlenSeq (t : WTy)
  | opaque (n : Nat)
  | compound (names : List Bytes) (types : List WTy)
  | enum (k : Kind) (names : List Bytes) (vals : List Nat)
  | ref
deriving Repr

/-- `signed` in netcdf/hdf5/writer_utils.go:246-261, 496-511. -/
def _root_.Verif.Kind.signed : Kind → Bool
  | .i8 | .i16 | .i32 | .i64 => true
  | _ => false

/-- A floating-point kind. -/
def _root_.Verif.Kind.isFloat : Kind → Bool
  | .f32 | .f64 => true
  | _ => false

/-- `binary.Write(buf, hw.byteOrder, v)`: `util.NativeByteOrder` is the order of the host machine. -/
def hostEnc (be : Bool) (k n : Nat) : Bytes := if be then beEnc k n else leEnc k n

/-- netcdf/hdf5/writer_utils.go:35-55 `buildFixedPointDatatype`. The byte order flag is set when the
order is `binary.BigEndian`, which `binary.NativeEndian` never is, so it is 0 on every host. -/
def buildFixedPoint (size : Nat) (signed : Bool) : Bytes :=
  [0x10, if signed then 8 else 0, 0, 0] ++ leEnc 4 size ++ leEnc 2 0 ++ leEnc 2 (size * 8)

/-- netcdf/hdf5/writer_utils.go:57-96 `buildFloatingPointDatatype`. -/
def buildFloatingPoint (size : Nat) : Bytes :=
  [0x11, 0x20, if size = 4 then 31 else 63, 0] ++ leEnc 4 size ++
    (if size = 4 then leEnc 2 0 ++ leEnc 2 32 ++ [23, 8, 0, 23] ++ leEnc 4 127
    else leEnc 2 0 ++ leEnc 2 64 ++ [52, 11, 0, 52] ++ leEnc 4 1023)

/-- netcdf/hdf5/writer_utils.go:98-106 `buildStringDatatype`. -/
def buildString (size : Nat) : Bytes := [0x13, 0, 0, 0] ++ leEnc 4 size

/-- netcdf/hdf5/writer_utils.go:180-188 `buildOpaqueDatatype`. -/
def buildOpaque (size : Nat) : Bytes := [0x15, 0, 0, 0] ++ leEnc 4 size

/-- netcdf/hdf5/writer_utils.go:531-542 `buildVLenStringDatatype`. -/
def buildVLenString : Bytes := [0x19, 1, 0, 0] ++ leEnc 4 16 ++ buildString 1

/-- netcdf/hdf5/writer_utils.go:544-552 `buildReferenceDatatype`. -/
def buildReference : Bytes := [0x17, 0, 0, 0] ++ leEnc 4 8

/-- netcdf/hdf5/writer_utils.go:495-515, the numeric cases. -/
def buildNum (k : Kind) : Bytes :=
  if k.isFloat then buildFloatingPoint k.size else buildFixedPoint k.size k.signed

mutual
/-- netcdf/hdf5/writer_utils.go:109-148 `calcFieldSize`. -/
def WTy.fieldSize : WTy → Nat
  | .num k => k.size
  | .fixStr _ => 16
  | .vlenStr => 16
  | .vlenSeq _ => 16
  | .opaque n => n
  | .compound _ ts => fieldSizes ts
  | .enum k _ _ => k.size
  | .ref => 8
/-- The loop over the fields of a compound. -/
def fieldSizes : List WTy → Nat
  | [] => 0
  | t :: ts => t.fieldSize + fieldSizes ts
end

/-- netcdf/hdf5/writer_utils.go:151-160 `writeEnc`. -/
def writeEnc (val totalSize : Nat) : Bytes :=
  if totalSize < 256 then leEnc 1 val
  else if totalSize < 65536 then leEnc 2 val
  else leEnc 4 val

mutual
/-- netcdf/hdf5/writer_utils.go:190-313, 450-563: the datatype message for a value of the type. In
a compound a string is always a variable-length string (lines 216-218). -/
def WTy.bytes (be : Bool) : WTy → Bytes
  | .num k => buildNum k
  | .fixStr n => buildString n
  | .vlenStr => buildVLenString
  | .vlenSeq t => [0x19, 0, 0, 0] ++ leEnc 4 16 ++ t.bytes be
  | .opaque n => buildOpaque n
  | .compound names ts =>
    [0x36, UInt8.ofNat names.length, UInt8.ofNat (names.length / 256),
      UInt8.ofNat (names.length / 65536)] ++ leEnc 4 (fieldSizes ts) ++
      memberBytes be (fieldSizes ts) 0 names ts
  | .enum k names vals =>
    [0x38, UInt8.ofNat names.length, UInt8.ofNat (names.length / 256),
      UInt8.ofNat (names.length / 65536)] ++ leEnc 4 k.size ++
      buildFixedPoint k.size k.signed ++ names.flatMap (fun n => n ++ [0]) ++
      vals.flatMap (hostEnc be k.size)
  | .ref => buildReference
/-- netcdf/hdf5/writer_utils.go:209-225, the loop over the members. -/
def memberBytes (be : Bool) (total : Nat) : Nat → List Bytes → List WTy → Bytes
  | off, n :: ns, t :: ts =>
    n ++ [0] ++ writeEnc off total ++ t.bytes be ++ memberBytes be total (off + t.fieldSize) ns ts
  | _, _, _ => []
end

/-! ### Reading -/

/-- What the reader keeps of a datatype message (`attribute`, netcdf/hdf5/hdf5.go:162-186). A
compound has, per member, name, byte offset and dimensions (`none` is nil), and the types. -/
inductive DT
  | fixed (len : Nat) (signed be : Bool)
  | float (len : Nat) (be : Bool)
  | time (len : Nat)
  | str (len : Nat)
  | opaque (len : Nat) (tagged : Bool)
  | compound (len : Nat) (members : List (Bytes × Nat × Option (List Nat))) (types : List DT)
  | ref (len : Nat)
  | enum (len : Nat) (base : DT) (names : List Bytes) (vals : List Nat)
  | vlen (len : Nat) (isStr : Bool) (elem : DT)
  | array (len : Nat) (dims : List Nat) (elem : DT)
deriving Repr

/-- `attr.length`. -/
def DT.len : DT → Nat
  | .fixed l _ _ | .float l _ | .time l | .str l | .opaque l _ | .compound l _ _ | .ref l
  | .enum l _ _ _ | .vlen l _ _ | .array l _ _ => l

/-- netcdf/hdf5/hdf5.go:529-557 `readNullTerminatedName`; `padding` is 7 or 0. -/
def readName (padding : Nat) : P Bytes := do
  let name ← fun s =>
    let name := s.rem.takeWhile (· != 0)
    if name.length = s.rem.length then .err .eof
    else .ok (name, ⟨s.pos + (name.length + 1), s.rem.drop (name.length + 1)⟩)
  if padding > 0 then checkZeroes ((8 - (name.length + 1) % 8) % 8) else pure ()
  pure name

/-- netcdf/hdf5/fixedPoint.go:139-171 `parse`, without the data. Errors of the package for
unsupported types (`ErrFixedPoint`, `ErrFloatingPoint`, `ErrBitfield`, ...) are `unsupported` here
and below. -/
def parseFixed (len b1 : Nat) : P DT := do
  P.assert (b1 / 2 % 4 == 0) .unsupported
  let r ← remLen
  P.assert (decide (0 < r)) .assertFail
  let bitOffset ← read16
  let _ ← read16
  P.assert (bitOffset == 0) .unsupported
  P.assert (len == 1 || len == 2 || len == 4 || len == 8) .unsupported
  pure (.fixed len (b1 / 8 % 2 == 1) (b1 % 2 == 1))

/-- netcdf/hdf5/floatingPoint.go:84-151 `parse`, without the data. -/
def parseFloat (version len b1 b2 : Nat) : P DT := do
  P.assert (version == 1) .unsupported
  P.assert (b1 / 64 % 2 == 0) .assertFail
  P.assert (b1 / 2 % 2 == 0) .unsupported
  P.assert (b1 / 4 % 2 == 0) .unsupported
  P.assert (b1 / 8 % 2 == 0) .unsupported
  let r ← remLen
  P.assert (decide (12 ≤ r)) .assertFail
  let bitOffset ← read16
  let bitPrecision ← read16
  let exponentLocation ← read8
  let exponentSize ← read8
  let _ ← read8
  let _ ← read8
  let exponentBias ← read32
  P.assert (bitOffset == 0) .unsupported
  P.assert (b1 / 16 % 4 == 2) .unsupported
  if len = 4 then
    P.assert (b2 == 31 && bitPrecision == 32 && exponentLocation == 23 && exponentSize == 8 &&
      exponentBias == 127) .unsupported
  else if len = 8 then
    P.assert (b2 == 63 && bitPrecision == 64 && exponentLocation == 52 && exponentSize == 11 &&
      exponentBias == 1023) .unsupported
  else P.fail .unsupported
  pure (.float len (b1 % 2 == 1))

/-- netcdf/hdf5/opaque.go:50-69 `parse`, without the data: the tag is everything that is left. -/
def parseOpaque (len : Nat) : P DT := do
  let r ← remLen
  if r = 0 then pure (.opaque len false)
  else do
    let tag ← rdN r
    P.assert ((tag.dropWhile (· != 0)).all (· == 0)) .assertFail
    pure (.opaque len true)

/-- netcdf/hdf5/compound.go:90-106: bytes of the offset of a member. -/
def offsetBytes (version len : Nat) : Nat :=
  if version = 1 ∨ version = 2 then 4
  else if len < 256 then 1
  else if len < 65536 then 2
  else if len < 16777216 then 3
  else 4

/-- netcdf/hdf5/compound.go:112-128: the dimensions of a member in version 1. -/
def memberDims (version : Nat) : P (Option (List Nat)) :=
  if version = 1 then do
    let d ← read8
    checkZeroes 3
    let perm ← read32
    P.assert (perm == 0) .assertFail
    let reserved ← read32
    checkVal 0 reserved
    let d0 ← read32
    let d1 ← read32
    let d2 ← read32
    let d3 ← read32
    if d > 4 then P.crash else pure (some ([d0, d1, d2, d3].take d))
  else pure none

/-- netcdf/hdf5/compound.go:84-134, the loop over the members. -/
def parseMembers (p : P DT) (version len : Nat) :
    Nat → P (List (Bytes × Nat × Option (List Nat)) × List DT)
  | 0 => pure ([], [])
  | n + 1 => do
    let name ← readName (if version = 1 ∨ version = 2 then 7 else 0)
    let off ← readEnc (offsetBytes version len)
    let dims ← memberDims version
    let dt ← p
    let r ← parseMembers p version len n
    pure ((name, off, dims) :: r.1, dt :: r.2)

/-- netcdf/hdf5/enum.go:124-127, the names of the members. -/
def readNames (padding : Nat) : Nat → P (List Bytes)
  | 0 => pure []
  | n + 1 => do
    let x ← readName padding
    let xs ← readNames padding n
    pure (x :: xs)

/-- netcdf/hdf5/enum.go:145-157, the values of the members. -/
def readVals (size : Nat) (be : Bool) : Nat → P (List Nat)
  | 0 => pure []
  | n + 1 => do
    let b ← rdN size
    let xs ← readVals size be n
    pure ((if be then beDec b else leDec b) :: xs)

/-- netcdf/hdf5/enum.go:114-168 `parse`, without the data. -/
def parseEnum (p : P DT) (version len b1 : Nat) : P DT := do
  let base ← p
  let names ← readNames (if version = 1 ∨ version = 2 then 7 else 0) b1
  match base with
  | .fixed l _ be => do
    P.assert (len == 1 || len == 2 || len == 4 || len == 8) .unsupported
    let vals ← readVals l be b1
    pure (.enum len base names vals)
  | _ => P.fail .assertFail

/-- netcdf/hdf5/vlen.go:54-92 `parse`, without the data. -/
def parseVlen (p : P DT) (len b1 b2 : Nat) : P DT := do
  P.assert (b1 / 16 % 16 == 0 || b1 / 16 % 16 == 1) .assertFail
  if b1 % 16 = 0 then checkVal 0 (b2 % 16)
  else if b1 % 16 = 1 then pure ()
  else P.fail .assertFail
  let elem ← p
  pure (.vlen len (b1 % 16 == 1) elem)

/-- `n` numbers of four bytes. -/
def read32s : Nat → P (List Nat)
  | 0 => pure []
  | n + 1 => do
    let x ← read32
    let xs ← read32s n
    pure (x :: xs)

/-- netcdf/hdf5/array.go:66-95 `parse`, without the data. -/
def parseArray (p : P DT) (version len : Nat) : P DT := do
  let d ← read8
  if version = 1 ∨ version = 2 then checkZeroes 3 else pure ()
  let dims ← read32s d
  if version < 3 then do
    let _ ← read32s d
    pure ()
  else pure ()
  let elem ← p
  pure (.array len dims elem)

/-- netcdf/hdf5/types.go:39-56, 87-90 `parse`: by class. `p` reads a nested datatype. -/
def parseClass (p : P DT) (b0 b1 b2 len : Nat) : P DT :=
  match b0 % 16 with
  | 0 => parseFixed len b1
  | 1 => parseFloat (b0 / 16) len b1 b2
  | 2 => pure (.time len)
  | 3 => do
    checkVal 1 (b0 / 16)
    pure (.str len)
  | 4 => P.fail .unsupported
  | 5 => parseOpaque len
  | 6 => do
    let r ← parseMembers p (b0 / 16) len b1
    pure (.compound len r.1 r.2)
  | 7 => do
    P.assert (b0 / 16 == 1) .unsupported
    P.assert (b1 % 16 == 0 || b1 % 16 == 1) .assertFail
    pure (.ref len)
  | 8 => parseEnum p (b0 / 16) len b1
  | 9 => parseVlen p len b1 b2
  | _ => parseArray p (b0 / 16) len

/-- netcdf/hdf5/types.go:118-147 `printDatatype`, without the data. The recursion is on `fuel`;
every level reads eight bytes. A class above 10 is an index out of range in line 131. -/
def parseDT : Nat → P DT
  | 0 => P.fail .other
  | fuel + 1 => do
    let r ← remLen
    P.assert (decide (8 ≤ r)) .assertFail
    let b0 ← read8
    let b1 ← read8
    let b2 ← read8
    let _ ← read8
    let len ← read32
    if b0 % 16 > 10 then P.crash else pure ()
    P.assert (decide (1 ≤ b0 / 16) && decide (b0 / 16 ≤ 4)) .unsupported
    P.assert (len != 0) .assertFail
    parseClass (parseDT fuel) b0 b1 b2 len

/-- A datatype message as a whole; eight bytes per level, so the fuel is enough. -/
def parseDatatype : P DT := fun s => parseDT (s.rem.length + 1) s

end Verif.H5
