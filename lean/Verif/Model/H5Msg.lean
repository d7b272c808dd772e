import Verif.Model.H5Type
/-!
Header messages: dataspace, layout, link, attribute (netcdf/hdf5/writer_utils.go,
netcdf/hdf5/hdf5writer.go and the `read...` functions of netcdf/hdf5/hdf5.go).
-/
namespace Verif.H5

/-! ### Dataspace -/

/-- netcdf/hdf5/writer_utils.go:12-33 `buildDataspaceMessage`. -/
def buildDataspace (dims : List Nat) : Bytes :=
  [1, UInt8.ofNat dims.length, 0] ++ [0] ++ [0, 0, 0, 0] ++ dims.flatMap (leEnc 8)

/-- `n` numbers of eight bytes. -/
def read64s : Nat → P (List Nat)
  | 0 => pure []
  | n + 1 => do
    let x ← read64
    let xs ← read64s n
    pure (x :: xs)

/-- netcdf/hdf5/hdf5.go:1544-1563: the type of the dataspace. -/
def dataspaceType (version dstype : Nat) : P Unit :=
  if version = 1 then do
    checkVal 0 dstype
    let r ← read32
    checkVal 0 r
  else P.assert (decide (dstype ≤ 2)) .assertFail

/-- netcdf/hdf5/hdf5.go:1531-1591 `readDataspace`: the lengths of the dimensions. -/
def readDataspace : P (List Nat) := do
  let version ← read8
  P.assert (version == 1 || version == 2) .dataspaceVersion
  let d ← read8
  let flags ← read8
  let dstype ← read8
  dataspaceType version dstype
  let dims ← read64s d
  if flags % 2 = 1 then do
    let _ ← read64s d
    pure ()
  else pure ()
  if version = 1 ∧ flags / 2 % 2 = 1 then do
    let _ ← read64s d
    P.fail .assertFail
  else pure ()
  pure dims

/-! ### Layout -/

/-- netcdf/hdf5/hdf5writer.go:441-448 `buildLayoutMessageV2`. -/
def buildLayout (addr size : Nat) : Bytes := [3, 1] ++ leEnc 8 addr ++ leEnc 8 size

/-- What the reader takes from a layout message. -/
inductive Layout
  | compact (data : Bytes)
  | contiguous (addr size : Nat)
  /-- contiguous or chunked, with no address -/
  | missing (layout : List Nat)
  | chunked (addr : Nat) (layout : List Nat) (elemSize : Nat)
deriving DecidableEq, Repr

/-- netcdf/hdf5/hdf5.go:1713-1772, chunked layouts of version 4: parsed and refused. -/
def readLayoutV4 (flags dimensionality : Nat) : P Layout := do
  let enc ← read8
  P.assert (decide (0 < enc) && decide (enc ≤ 8)) .assertFail
  let rec sizes : Nat → P Unit
    | 0 => pure ()
    | n + 1 => do
      let _ ← readEnc enc
      sizes n
  sizes dimensionality
  let cit ← read8
  P.assert (decide (1 ≤ cit) && decide (cit ≤ 5)) .layout
  if cit = 1 then do
    let _ ← read64
    if flags % 2 = 1 then do
      let _ ← read32
      pure ()
    else pure ()
    P.fail .version
  else if cit = 4 then do
    let _ ← rdN 5
    P.fail .version
  else if cit = 5 then do
    let _ ← rdN 6
    P.fail .version
  else pure ()
  if cit = 3 then do
    let _ ← read8
    pure ()
  else pure ()
  let rem ← remLen
  if rem = 8 then do
    let _ ← read64
    P.fail .layout
  else P.fail .assertFail

/-- netcdf/hdf5/hdf5.go:1644-1797 `readDataLayout`. -/
def readLayout : P Layout := do
  let version ← read8
  P.assert (version == 3 || version == 4) .layout
  let cls ← read8
  if cls = 0 then do
    let size ← read16
    let b ← rdN size
    pure (.compact b)
  else if cls = 1 then do
    let addr ← read64
    let size ← read64
    pure (if addr = 0xffffffffffffffff then .missing [] else .contiguous addr size)
  else if cls = 2 then
    if version = 4 then do
      let flags ← read8
      let dimensionality ← read8
      readLayoutV4 flags dimensionality
    else do
      let dimensionality ← read8
      let addr ← read64
      P.assert (decide (2 ≤ dimensionality)) .dimensionality
      let layout ← read32s (dimensionality - 1)
      let size ← read32
      pure (if addr = 0xffffffffffffffff then .missing layout else .chunked addr layout size)
  else if cls = 3 then P.fail .virtualStorage
  else P.fail .assertFail

/-! ### Group messages -/

/-- netcdf/hdf5/hdf5writer.go:421-428 `buildLinkInfoMessage`. -/
def buildLinkInfo : Bytes := [0, 0] ++ leEnc 8 0xffffffffffffffff ++ leEnc 8 0xffffffffffffffff

/-- netcdf/hdf5/hdf5.go:1422-1441 `readLinkInfo`: addresses of the heap and of the B-tree. -/
def readLinkInfo : P (Nat × Nat) := do
  let _ ← read8
  let flags ← read8
  if flags % 2 = 1 then do
    let _ ← read64
    pure ()
  else pure ()
  let heap ← read64
  let btree ← read64
  if flags / 2 % 2 = 1 then do
    let _ ← read64
    pure ()
  else pure ()
  pure (heap, btree)

/-- netcdf/hdf5/hdf5.go:1463-1483 `readAttributeInfo`. -/
def readAttributeInfo : P (Nat × Nat) := do
  let version ← read8
  checkVal 0 version
  let flags ← read8
  if flags % 2 = 1 then do
    let _ ← read16
    pure ()
  else pure ()
  let heap ← read64
  let btree ← read64
  if flags / 2 % 2 = 1 then do
    let _ ← read64
    pure ()
  else pure ()
  pure (heap, btree)

/-- netcdf/hdf5/hdf5.go:1485-1522 `readGroupInfo`. -/
def readGroupInfo : P Unit := do
  let version ← read8
  checkVal 0 version
  let flags ← read8
  if flags % 2 = 1 then do
    let r ← remLen
    P.assert (decide (4 ≤ r)) .assertFail
    let _ ← read16
    let _ ← read16
    pure ()
  else pure ()
  if flags / 2 % 2 = 1 then do
    let r ← remLen
    P.assert (decide (4 ≤ r)) .assertFail
    let _ ← read16
    let _ ← read16
    pure ()
  else pure ()
  let r ← remLen
  checkZeroes r

/-! ### Links -/

/-- netcdf/hdf5/hdf5writer.go:430-439 `buildLinkMessage`. -/
def buildLink (name : Bytes) (addr : Nat) : Bytes :=
  [1, 0, UInt8.ofNat name.length] ++ name ++ leEnc 8 addr

/-- netcdf/hdf5/hdf5.go:710-747, the first half of `readLinkDirectFrom`: name and address (and the
creation order). The reader is limited to the message. -/
def readLink : P (Bytes × Nat × Nat) := do
  let version ← read8
  checkVal 1 version
  let flags ← read8
  if flags / 8 % 2 = 1 then do
    let _ ← read8
    pure ()
  else pure ()
  let co ← if flags / 4 % 2 = 1 then read64 else pure 0
  if flags / 16 % 2 = 1 then do
    let cSet ← read8
    P.assert (cSet == 0 || cSet == 1) .assertFail
  else pure ()
  let len ← readEnc (2 ^ (flags % 4))
  let name ← rdN len
  let addr ← read64
  let r ← remLen
  checkZeroes r
  pure (name, addr, co)

/-! ### Attributes -/

/-- netcdf/hdf5/hdf5.go:518-527 `getString`. -/
def getString (b : Bytes) : Bytes := b.takeWhile (· != 0)

/-- Zeros up to a multiple of eight. -/
def pad8 (n : Nat) : Bytes := List.replicate ((8 - n % 8) % 8) 0

/-- netcdf/hdf5/writer_utils.go:315-340, 578-604, `writePadded`. -/
def writePadded (buf b : Bytes) : Bytes := buf ++ b ++ pad8 (buf ++ b).length

/-- netcdf/hdf5/writer_utils.go:315-355 and 578-609: an attribute message from its name, the
datatype and dataspace messages and the encoded value. Both functions write this; the lengths are
stored in two bytes. -/
def buildAttr (name dt ds data : Bytes) : Bytes :=
  writePadded (writePadded (writePadded
    ([1, 0] ++ leEnc 2 (name.length + 1) ++ leEnc 2 dt.length ++ leEnc 2 ds.length)
    (name ++ [0])) dt) ds ++ data

/-- The value of an attribute after its message has been read: nothing, a string that is read at
once (`attr.value`), or the bytes to be decoded later (`attr.df`). -/
inductive AttrData
  | none
  | value (s : Bytes)
  | df (b : Bytes)
deriving DecidableEq, Repr

/-- netcdf/hdf5/hdf5.go:162-186 `attribute`, the part for an attribute of an object. The creation
order is always 0 in headers without dense storage. -/
structure Attr where
  name : Bytes
  dims : List Nat
  dt : DT
  data : AttrData
deriving Repr

/-- The end of the `parse` functions, for the bytes `b` behind the dataspace: fixedPoint.go:163-171,
floatingPoint.go:145-151, types.go:64-70, string.go:44-52, opaque.go:46-68, compound.go:140-152,
reference.go:55-66, enum.go:165-168, vlen.go:79-90, array.go:88-92 (all in netcdf/hdf5). -/
def attrData (b : Bytes) : DT → Res AttrData
  | .fixed len _ _ => .ok (if len ≤ b.length then .df b else .none)
  | .float len _ => if len ≤ b.length then .ok (.df b) else .err .assertFail
  | .time _ => .ok .none
  | .str _ => .ok (.value (getString b))
  | .opaque len tagged => .ok (if tagged = true ∧ len ≤ b.length then .df b else .none)
  | .compound .. => .ok (if 0 < b.length then .df b else .none)
  | .ref len => if len ≤ b.length then .ok (.df b) else .err .other
  | .enum .. => .ok (if 0 < b.length then .df b else .none)
  | .vlen len _ _ => .ok (if len ≤ b.length then .df b else .none)
  | .array .. => .ok (if 0 < b.length then .df b else .none)

/-- netcdf/hdf5/hdf5.go:569-631 `readAttribute`. -/
def readAttribute : P Attr := do
  let version ← read8
  P.assert (decide (1 ≤ version) && decide (version ≤ 3)) .assertFail
  let flags ← read8
  if version = 1 then checkVal 0 flags
  else P.assert (flags % 4 == 0) .unsupported
  let nameSize ← read16
  let dtSize ← read16
  let dsSize ← read16
  if version = 3 then do
    let _ ← read8
    pure ()
  else pure ()
  P.assert (decide (0 < nameSize)) .assertFail
  let b ← rdN nameSize
  if version = 1 then padTo8 else pure ()
  let dtb ← rdN dtSize
  if version = 1 then do
    let z ← rdN ((8 - dtSize % 8) % 8)
    P.assert (z.all (· == 0)) .assertFail
  else pure ()
  let dims ← sub dsSize readDataspace
  if version = 1 then padTo8 else pure ()
  let dt ← fun s =>
    match parseDatatype ⟨0, dtb⟩ with
    | .ok (dt, _) => .ok (dt, s)
    | .err e => .err e
    | .panic => .panic
  let r ← remLen
  let data ← rdN r
  let d ← P.lift (attrData data dt)
  pure ⟨getString b, dims, dt, d⟩

end Verif.H5
