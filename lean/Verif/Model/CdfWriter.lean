import Verif.Model.GoVal
import Verif.Model.Names
/-!
Model of netcdf/cdf/cdfwriter.go.

The output file is the byte string written so far; `countedWriter.Count()` is its length
(`bufio` is transparent). All `int64` values of the writer are lengths, ids and offsets, kept as
natural numbers; a number is cut to 4 or 8 bytes when it is written.
-/
namespace Verif.Cdf

/-- netcdf/cdf/cdf.go:27-42, the external types of a CDF file (`typeNone` is `none`). -/
inductive NcType
  | byte | char | short | int | float | double | ubyte | ushort | uint | int64 | uint64
deriving DecidableEq, Repr

/-- netcdf/cdf/cdf.go:27-42, the numbers of the constants. -/
def NcType.code : NcType → Nat
  | .byte => 1 | .char => 2 | .short => 3 | .int => 4 | .float => 5 | .double => 6
  | .ubyte => 7 | .ushort => 8 | .uint => 9 | .int64 => 10 | .uint64 => 11

/-- netcdf/cdf/cdf.go:21-25. -/
def fieldDimension : Nat := 0xa
def fieldVariable : Nat := 0xb
def fieldAttribute : Nat := 0xc

/-- netcdf/cdf/cdfwriter.go:26-34 `savedVar` without `vsize`, which `writeVars` computes on the
fly. -/
structure SavedVar where
  name : Bytes
  val : GoVal
  ty : NcType
  dimLengths : List Nat
  dimNames : List Bytes
  attrs : Attrs

/-- netcdf/cdf/cdfwriter.go:36-47 `CDFWriter` without the file and the buffer; `begin` is local
to `writeAll`. -/
structure Writer where
  vars : List SavedVar
  globalAttrs : Attrs
  dimLengths : GoMap Nat
  dimNames : List Bytes
  dimIds : GoMap Nat
  nextID : Nat
  version : Nat

/-- api.Variable (netcdf/api/api.go). -/
structure Variable where
  values : GoVal
  dimensions : List Bytes
  attributes : Attrs

/-- netcdf/cdf/cdfwriter.go:940-959 `OpenWriter`. -/
def Writer.init : Writer :=
  { vars := [], globalAttrs := some OMap.empty, dimLengths := [], dimNames := [], dimIds := [],
    nextID := 0, version := 2 }

/-! ### Low level output -/

/-- netcdf/cdf/cdfwriter.go:862-865 `write8`. -/
def write8 (n : Nat) (out : Bytes) : Bytes := out ++ beEnc 1 n
/-- netcdf/cdf/cdfwriter.go:871-873 `write32`. -/
def write32 (n : Nat) (out : Bytes) : Bytes := out ++ beEnc 4 n
/-- netcdf/cdf/cdfwriter.go:875-877 `write64`. -/
def write64 (n : Nat) (out : Bytes) : Bytes := out ++ beEnc 8 n
/-- netcdf/cdf/cdfwriter.go:858-860 `writeBytes`. -/
def writeBytes (b : Bytes) (out : Bytes) : Bytes := out ++ b

/-- netcdf/cdf/cdfwriter.go:791-793 `roundInt64`; `(i+3) & ^3` on a non-negative number. -/
def roundInt64 (i : Nat) : Nat := (i + 3) / 4 * 4

/-- netcdf/cdf/cdfwriter.go:795-802 `pad`. -/
def pad (out : Bytes) : Bytes :=
  let extra := roundInt64 out.length - out.length
  if extra > 0 then writeBytes (List.replicate extra 0) out else out

/-- netcdf/cdf/cdfwriter.go:887-893 `writeNumber`. -/
def writeNumber (version n : Nat) (out : Bytes) : Bytes :=
  if version < 5 then write32 n out else write64 n out

/-- netcdf/cdf/cdfwriter.go:879-885 `writeName`. -/
def writeName (version : Nat) (name : Bytes) (out : Bytes) : Bytes :=
  pad (writeBytes name (writeNumber version name.length out))

/-! ### Values -/

/-- netcdf/cdf/cdfwriter.go:328-373 `scalarKind` on numeric kinds. Its side effect
(`version = 5` for the v5 kinds) is repeated by AddVar at 415-418, where the model has it. -/
def kindType : Kind → NcType
  | .i8 => .byte | .i16 => .short | .i32 => .int | .f32 => .float | .f64 => .double
  | .u8 => .ubyte | .u16 => .ushort | .u32 => .uint | .u64 => .uint64 | .i64 => .int64

/-- netcdf/cdf/cdfwriter.go:416, the types that need version 5. -/
def NcType.isV5 : NcType → Bool
  | .ubyte | .ushort | .uint | .uint64 | .int64 => true
  | _ => false

/-- Longest string among the elements, netcdf/cdf/cdfwriter.go:290-295. -/
def maxStrLen : List GoVal → Nat
  | [] => 0
  | .str s :: xs => max s.length (maxStrLen xs)
  | _ :: xs => maxStrLen xs

/-- netcdf/cdf/cdfwriter.go:267-320 `getDimLengthsHelper`. `noNames` is `len(dimNames) == 0`. What happens
to values of the private types of netcdf/hdf5 is not modelled (here: an error). -/
def getDimLengths (noNames : Bool) : GoVal → List Nat → Res (List Nat × NcType)
  | .num k _, dims => .ok (dims, kindType k)
  | .str s, dims =>
    if s.length = 1 ∧ noNames = true then .ok (dims, .char) else .ok (dims ++ [s.length], .char)
  | .slice e xs, dims =>
    if e = .str then
      if maxStrLen xs = 0 then .err .emptySlice
      else .ok (dims ++ [xs.length] ++ [maxStrLen xs], .char)
    else match xs with
      | [] =>
        match e with
        | .num k => .ok (dims ++ [0], kindType k)
        | _ => .err .emptySlice
      | x :: rest => getDimLengths noNames x (dims ++ [(x :: rest).length])
  | .other lenable, _ => if lenable then .err .unknownType else .panic
  | .user _, _ => .err .unknownType

/-- `float32(val.Float())` on a float32: the conversion to float64 and back quiets a signalling
NaN (bit 22) and is the identity otherwise. -/
def quiet32 (bits : Nat) : Nat :=
  if bits / 2 ^ 23 % 256 = 255 ∧ bits % 2 ^ 23 ≠ 0 ∧ bits / 2 ^ 22 % 2 = 0 then bits + 2 ^ 22
  else bits

/-- Outcomes in sequence, output concatenated. -/
def concatRes : List (Res Bytes) → Res Bytes
  | [] => .ok []
  | r :: rs => do
    let a ← r
    let b ← concatRes rs
    pure (a ++ b)

/-- One element of a numeric slice as `binary.Write` stores it. -/
def elemBytes (k : Kind) : GoVal → Res Bytes
  | .num k' bits => if k' = k then .ok (beEnc k.size bits) else .panic
  | _ => .panic

/-- netcdf/cdf/cdfwriter.go:103-265 `storeBytes` ... `storeDoubles`, which differ only in the
element type: a scalar (`val.Int()` and friends), a `[]T` written whole after a type assertion, or
a loop over the elements. -/
def storeNum (k : Kind) : List Nat → GoVal → Res Bytes
  | [], v =>
    match v with
    | .num k' bits =>
      if k' = k then .ok (beEnc k.size (if k = .f32 then quiet32 bits else bits)) else .panic
    | _ => .panic
  | [_], v =>
    match v with
    | .slice e xs => if e = .num k then concatRes (xs.map (elemBytes k)) else .panic
    | _ => .panic
  | _ :: d :: ds, v =>
    match v with
    | .slice _ xs => concatRes (xs.map (storeNum k (d :: ds)))
    | _ => .panic

/-- netcdf/cdf/cdfwriter.go:71-101 `storeChars`. `val.String()` of a value that is not a string is
text beginning with `<`. -/
def storeChars : List Nat → GoVal → Res Bytes
  | [], v =>
    match v with
    | .str [] => .ok []
    | .str (c :: _) => .ok [c]
    | _ => .ok [60]
  | [thisDim], v =>
    match v with
    | .str s => .ok (s ++ List.replicate (thisDim - s.length) 0)
    | _ => .err .internal
  | _ :: d :: ds, v =>
    match v with
    | .slice _ xs => concatRes (xs.map (storeChars (d :: ds)))
    | _ => .panic

/-- The kind stored for a type, `none` for characters. -/
def NcType.kind : NcType → Option Kind
  | .byte => some .i8 | .char => none | .short => some .i16 | .int => some .i32
  | .float => some .f32 | .double => some .f64 | .ubyte => some .u8 | .ushort => some .u16
  | .uint => some .u32 | .int64 => some .i64 | .uint64 => some .u64

/-- Bytes per element: netcdf/cdf/cdfwriter.go:619-630 and the same table in
netcdf/cdf/cdf.go:666-680. -/
def NcType.size : NcType → Nat
  | .double | .int64 | .uint64 => 8
  | .int | .float | .uint => 4
  | .short | .ushort => 2
  | .char | .byte | .ubyte => 1

/-- netcdf/cdf/cdfwriter.go:805-832, after which types `writeData` pads. -/
def NcType.padded : NcType → Bool
  | .byte | .char | .short | .ushort | .ubyte => true
  | _ => false

/-- netcdf/cdf/cdfwriter.go:805-832, the switch of `writeData`, without the padding. -/
def storeVal (sv : SavedVar) : Res Bytes :=
  match sv.ty.kind with
  | some k => storeNum k sv.dimLengths sv.val
  | none => storeChars sv.dimLengths sv.val

/-- netcdf/cdf/cdfwriter.go:804-836 `writeData`. -/
def writeData (sv : SavedVar) (out : Bytes) : Res Bytes := do
  let b ← storeVal sv
  let out := writeBytes b out
  pure (if sv.ty.padded then pad out else out)

/-! ### Attributes -/

/-- The type switch of netcdf/cdf/cdfwriter.go:462-581 (and 682-750): type, number of elements,
bytes. `none` is the default case. -/
def attrParts : GoVal → Option (NcType × Nat × Res Bytes)
  | .str s => some (.char, s.length, .ok s)
  | .num k bits => some (kindType k, 1, elemBytes k (.num k bits))
  | .slice (.num k) xs => some (kindType k, xs.length, concatRes (xs.map (elemBytes k)))
  | _ => none

/-- One turn of the loop at netcdf/cdf/cdfwriter.go:459-582. -/
def writeAttr (version : Nat) (om : OMap GoVal) (k : Bytes) (out : Bytes) : Res Bytes :=
  match (om.get k).bind attrParts with
  | none => .err .unknownType
  | some (ty, n, rb) => do
    let b ← rb
    let out := writeName version k out
    let out := write32 ty.code out
    let out := writeNumber version n out
    let out := writeBytes b out
    pure (if ty.padded then pad out else out)

/-- The loop at netcdf/cdf/cdfwriter.go:459-582. -/
def writeAttrLoop (version : Nat) (om : OMap GoVal) : List Bytes → Bytes → Res Bytes
  | [], out => .ok out
  | k :: ks, out => do
    let out ← writeAttr version om k out
    writeAttrLoop version om ks out

/-- netcdf/cdf/cdfwriter.go:451-583 `writeAttributes`. -/
def writeAttributes (version : Nat) (attrs : Attrs) (out : Bytes) : Res Bytes :=
  match attrs with
  | none => .ok (writeNumber version 0 (write32 0 out))
  | some om =>
    if om.visibleKeys.length = 0 then .ok (writeNumber version 0 (write32 0 out))
    else
      writeAttrLoop version om om.visibleKeys
        (writeNumber version om.visibleKeys.length (write32 fieldAttribute out))

/-- netcdf/cdf/cdfwriter.go:591-602: `some true` for a type that needs version 5, `some false`
for the other attribute types, `none` for the default case. -/
def attrClass : GoVal → Option Bool
  | .str _ => some false
  | .num k _ => some (kindType k).isV5
  | .slice (.num k) _ => some (kindType k).isV5
  | _ => none

/-- The loop at netcdf/cdf/cdfwriter.go:589-603; the first v5 attribute ends it. -/
def checkV5Loop (version : Nat) (om : OMap GoVal) : List Bytes → Nat × Res Unit
  | [] => (version, .ok ())
  | k :: ks =>
    match (om.get k).bind attrClass with
    | some true => (5, .ok ())
    | some false => checkV5Loop version om ks
    | none => (version, .err .attribute)

/-- netcdf/cdf/cdfwriter.go:585-604 `checkV5Attributes`: the new version and the outcome. -/
def checkV5Attributes (version : Nat) (attrs : Attrs) : Nat × Res Unit :=
  match attrs with
  | none => (version, .ok ())
  | some om => checkV5Loop version om om.visibleKeys

/-- netcdf/cdf/cdfwriter.go:375-385 `hasValidNames`. -/
def hasValidNames (u : UniTables) (attrs : Attrs) : Bool :=
  match attrs with
  | none => true
  | some om => om.visibleKeys.all (isValidName u)

/-! ### AddAttributes, AddVar -/

/-- netcdf/cdf/cdfwriter.go:389-395 `AddAttributes`. -/
def Writer.addAttributes (u : UniTables) (cw : Writer) (attrs : Attrs) : Writer × Res Unit :=
  if ¬ hasValidNames u attrs then (cw, .err .invalidName)
  else ({ cw with globalAttrs := attrs }, .ok ())

/-- netcdf/cdf/cdfwriter.go:424-431: the name made up for a dimension without a name. -/
def genDimName (cw : Writer) (ty : NcType) (name : Bytes) (isLast : Bool) : Bytes :=
  if ty = .char ∧ isLast = true then ascii "_stringlen_" ++ name
  else ascii "_dimid_" ++ decDigits cw.nextID

/-- netcdf/cdf/cdfwriter.go:434-444: register dimension `dimName` with the given length. -/
def Writer.useDim (cw : Writer) (dimName : Bytes) (len : Nat) : Writer × Res Unit :=
  match cw.dimLengths.get dimName with
  | some currentLength =>
    if len ≠ currentLength then (cw, .err .dimensionSize) else (cw, .ok ())
  | none =>
    ({ cw with
        dimLengths := cw.dimLengths.set dimName len
        dimIds := cw.dimIds.set dimName cw.nextID
        dimNames := cw.dimNames ++ [dimName]
        nextID := cw.nextID + 1 }, .ok ())

/-- netcdf/cdf/cdfwriter.go:419-445, the loop over the dimensions from index `i` on; `lens` are
the lengths from index `i` on and `dims` is `vr.Dimensions`. -/
def Writer.addDims (name : Bytes) (ty : NcType) :
    List Nat → Nat → Writer → List Bytes → Writer × Res (List Bytes)
  | [], _, cw, dims => (cw, .ok dims)
  | len :: lens, i, cw, dims =>
    let dims := if dims.getD i [] = [] then dims ++ [genDimName cw ty name lens.isEmpty] else dims
    match dims[i]? with
    | none => (cw, .panic)
    | some dimName =>
      match cw.useDim dimName len with
      | (cw, .ok ()) => Writer.addDims name ty lens (i + 1) cw dims
      | (cw, .err e) => (cw, .err e)
      | (cw, .panic) => (cw, .panic)

/-- netcdf/cdf/cdfwriter.go:404-449 `AddVar`: the new state of the writer and the outcome. -/
def Writer.addVar (u : UniTables) (cw : Writer) (name : Bytes) (vr : Variable) :
    Writer × Res Unit :=
  if ¬ isValidName u name then (cw, .err .invalidName)
  else if ¬ hasValidNames u vr.attributes then (cw, .err .invalidName)
  else
    match checkV5Attributes cw.version vr.attributes with
    | (version, .err e) => ({ cw with version := version }, .err e)
    | (version, .panic) => ({ cw with version := version }, .panic)
    | (version, .ok ()) =>
      let cw := { cw with version := version }
      match getDimLengths vr.dimensions.isEmpty vr.values [] with
      | .err e => (cw, .err e)
      | .panic => (cw, .panic)
      | .ok (dimLengths, ty) =>
        let cw := { cw with version := if ty.isV5 then 5 else cw.version }
        match cw.addDims name ty dimLengths 0 vr.dimensions with
        | (cw, .err e) => (cw, .err e)
        | (cw, .panic) => (cw, .panic)
        | (cw, .ok dims) =>
          let sv : SavedVar := ⟨name, vr.values, ty, dimLengths, dims, vr.attributes⟩
          ({ cw with vars := cw.vars ++ [sv] }, .ok ())

/-! ### Close -/

/-- netcdf/cdf/cdfwriter.go:631-641: the product of the dimension lengths; a zero length is
skipped when it is the first one and an error otherwise. -/
def vsizeLoop : List Nat → Nat → Nat → Res Nat
  | [], _, acc => .ok acc
  | v :: vs, i, acc =>
    if v ≠ 0 then vsizeLoop vs (i + 1) (acc * v)
    else if i ≠ 0 then .err .unlimitedMustBeFirst
    else vsizeLoop vs (i + 1) acc

/-- netcdf/cdf/cdfwriter.go:618-645: the size recorded for a variable. -/
def vsizeOf (sv : SavedVar) : Res Nat := do
  let n ← vsizeLoop sv.dimLengths 0 sv.ty.size
  pure (4 * ((n + 3) / 4))

/-- netcdf/cdf/cdfwriter.go:610-614, the dimension ids of a variable. A name that is not in the
map reads as 0. -/
def writeDimIds (version : Nat) (dimIds : GoMap Nat) (names : List Bytes) :
    List Nat → Nat → Bytes → Res Bytes
  | [], _, out => .ok out
  | _ :: lens, i, out =>
    match names[i]? with
    | none => .panic
    | some name =>
      writeDimIds version dimIds names lens (i + 1)
        (writeNumber version ((dimIds.get name).getD 0) out)

/-- netcdf/cdf/cdfwriter.go:606-652 `writeVar`, given the offset of its data; also returns the
`vsize` that is stored in `saved.vsize`. -/
def writeVar (version : Nat) (dimIds : GoMap Nat) (sv : SavedVar) (offset : Nat) (out : Bytes) :
    Res (Bytes × Nat) := do
  let out := writeName version sv.name out
  let out := writeNumber version sv.dimLengths.length out
  let out ← writeDimIds version dimIds sv.dimNames sv.dimLengths 0 out
  let out ← writeAttributes version sv.attrs out
  let out := write32 sv.ty.code out
  let vsize ← vsizeOf sv
  let out := writeNumber version vsize out
  pure (write64 offset out, vsize)

/-- The loop at netcdf/cdf/cdfwriter.go:925-927. `offset` is `calcOffset` (647-650), the sum of
`begin` and the sizes of the variables before. -/
def writeVars (version : Nat) (dimIds : GoMap Nat) : List SavedVar → Nat → Bytes → Res Bytes
  | [], _, out => .ok out
  | sv :: svs, offset, out => do
    let (out, vsize) ← writeVar version dimIds sv offset out
    writeVars version dimIds svs (offset + vsize) out

/-- The loop at netcdf/cdf/cdfwriter.go:928-930. -/
def writeDatas : List SavedVar → Bytes → Res Bytes
  | [], out => .ok out
  | sv :: svs, out => do
    let out ← writeData sv out
    writeDatas svs out

/-- netcdf/cdf/cdfwriter.go:656-661, `addLength`. -/
def lengthSize (version : Nat) : Nat := if version = 5 then 8 else 4

/-- The loop at netcdf/cdf/cdfwriter.go:670-752. -/
def attrSizeLoop (version : Nat) (om : OMap GoVal) : List Bytes → Nat → Res Nat
  | [], count => .ok count
  | k :: ks, count =>
    let count := roundInt64 (count + lengthSize version + k.length)
    let count := count + 4 + lengthSize version
    match (om.get k).bind attrParts with
    | none => .err .unknownType
    | some (ty, n, _) => attrSizeLoop version om ks (roundInt64 (count + ty.size * n))

/-- netcdf/cdf/cdfwriter.go:654-754 `computeAttributeSize`. -/
def computeAttributeSize (version : Nat) (attrs : Attrs) : Res Nat :=
  match attrs with
  | none => .ok (4 + lengthSize version)
  | some om => attrSizeLoop version om om.visibleKeys (4 + lengthSize version)

/-- netcdf/cdf/cdfwriter.go:756-789 `computeVarSize`. -/
def computeVarSize (version : Nat) (sv : SavedVar) : Res Nat := do
  let count := roundInt64 (lengthSize version + sv.name.length)
  let count := count + lengthSize version
  let count := count + sv.dimLengths.length * 4
  let count := if version = 5 then count + sv.dimLengths.length * 4 else count
  let a ← computeAttributeSize version sv.attrs
  pure (count + a + 4 + lengthSize version + 8)

/-- The loop at netcdf/cdf/cdfwriter.go:921-923. -/
def computeVarSizes (version : Nat) : List SavedVar → Nat → Res Nat
  | [], acc => .ok acc
  | sv :: svs, acc => do
    let n ← computeVarSize version sv
    computeVarSizes version svs (acc + n)

/-- The loop at netcdf/cdf/cdfwriter.go:903-907 from dimension id `i` on. -/
def writeDims (version : Nat) (dimLengths : GoMap Nat) : List Bytes → Bytes → Bytes
  | [], out => out
  | name :: names, out =>
    writeDims version dimLengths names
      (writeNumber version ((dimLengths.get name).getD 0) (writeName version name out))

/-- netcdf/cdf/cdfwriter.go:896-911: magic, version, number of records, dimensions. The loop runs
over the first `nextID` entries of `dimNames`; fewer entries than that would panic. -/
def Writer.writeFront (cw : Writer) : Res Bytes :=
  let out := writeBytes (ascii "CDF") []
  let out := write8 cw.version out
  let out := writeNumber cw.version 0 out
  if cw.dimLengths.length > 0 then
    if cw.dimNames.length < cw.nextID then .panic
    else
      let out := write32 fieldDimension out
      let out := writeNumber cw.version cw.dimLengths.length out
      .ok (writeDims cw.version cw.dimLengths (cw.dimNames.take cw.nextID) out)
  else
    let out := write32 0 out
    .ok (writeNumber cw.version 0 out)

/-- netcdf/cdf/cdfwriter.go:912-934: global attributes, variables, data. -/
def Writer.writeBack (cw : Writer) (out : Bytes) : Res Bytes := do
  let (version, r) := checkV5Attributes cw.version cw.globalAttrs
  r
  let out ← writeAttributes version cw.globalAttrs out
  if cw.vars.length > 0 then
    let out := write32 fieldVariable out
    let out := writeNumber version cw.vars.length out
    let begin_ ← computeVarSizes version cw.vars out.length
    let out ← writeVars version cw.dimIds cw.vars begin_ out
    writeDatas cw.vars out
  else
    pure (writeNumber version 0 (write32 0 out))

/-- netcdf/cdf/cdfwriter.go:895-935 `writeAll`, hence the contents of the file after a successful
`Close` (839-852). -/
def Writer.writeAll (cw : Writer) : Res Bytes := do
  let out ← cw.writeFront
  cw.writeBack out

end Verif.Cdf
