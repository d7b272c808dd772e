import Verif.Model.H5Group
import Verif.Model.H5Data
import Verif.Model.H5Writer
/-!
The calls on an open HDF5 file: netcdf/hdf5/hdf5.go:2845-2906, 3029-3058, 3085-3131, 3159-3428 and
internal/slicer.go.

Maps are ranged over in no particular order in `ListSubgroups`, `ListVariables`, `ListDimensions`
(the sort by creation order is not stable and a file may have no creation order) and in the keys of
attributes; here the order is the one in which things were read. `h5.addrToName` (a cache of a
function of the file) is computed each time. The type names that `GetVarGetter` computes are left out.

The code keeps the value of an attribute once it has been computed, so that it is computed from
the same bytes only once. Here it is computed each time.
-/
namespace Verif.H5

/-- What the reader needs besides the tree of objects: the file, `compress/zlib` and fuel for the
index of chunks. -/
structure Src where
  inflate : Bytes → Res Bytes
  fuel : Nat
  file : Bytes

/-! ### Kinds of objects -/

/-- "This is a netCDF dimension" -/
def dimMarker : Bytes := ascii "This is a netCDF dimension"
/-- "_Netcdf4Coordinates" -/
def kCoordinates : Bytes := ascii "_Netcdf4Coordinates"
/-- "REFERENCE_LIST" -/
def kRefList : Bytes := ascii "REFERENCE_LIST"

/-- netcdf/hdf5/hdf5.go:2859-2863 `objectKind`. -/
structure ObjKind where
  hasClass : Bool
  hasName : Bool
  hasCoordinates : Bool
deriving DecidableEq, Repr

/-- netcdf/hdf5/hdf5.go:2869-2884 `classifyObject`. The code looks at the value a `NAME` attribute
has at this moment: a string of fixed length has it from the start, a string of variable length
only when the attributes have been parsed by another call. Here it never counts. -/
def classify (attrs : List Attr) : ObjKind where
  hasClass := attrs.any fun a => a.name == kClass
  hasName := attrs.any fun a => a.name == kName &&
    match a.data with
    | .value s => !dimMarker.isPrefixOf s
    | _ => false
  hasCoordinates := attrs.any fun a => a.name == kCoordinates

/-- netcdf/hdf5/hdf5.go:2888-2890 `isDimensionScale`. -/
def ObjKind.isScale (k : ObjKind) : Bool := k.hasClass && !k.hasCoordinates && !k.hasName

/-- netcdf/hdf5/hdf5.go:2892-2906 `findVariable`. -/
def Group.findVariable (g : Group) (name : Bytes) : Option Obj :=
  match g.obj.child name with
  | none => none
  | some o =>
    if (classify o.info.attrs).isScale then none
    else if o.info.dims.isNone then none
    else some o

/-! ### Attributes -/

/-- The fill pattern for short attributes of an object: `makeFillValueReader(obj, …)` in
netcdf/hdf5/hdf5.go:3087. An object without a type has class and length zero. -/
def attrFill (i : Info) : Res Bytes := fillPattern i (i.dt.getD (.fixed 0 false false))

/-- netcdf/hdf5/hdf5.go:3085-3098 `parseAttr`: the value that is kept; `none` is nil, for an
attribute without data. -/
def parseAttr (heap : HeapFn) (i : Info) (a : Attr) : Res (Option GoVal) :=
  match a.data with
  | .value s => .ok (some (.str s))
  | .none => .ok none
  | .df _ =>
    match attrFill i with
    | .err e => .err e
    | .panic => .panic
    | .ok fill => (attrRaw heap fill a).map some

/-- netcdf/hdf5/hdf5.go:3384-3391, the loop of `sortAttrList`: all attributes with their values. -/
def parseAttrs (heap : HeapFn) (i : Info) : List Attr → Res (List (Attr × Option GoVal))
  | [] => .ok []
  | a :: as =>
    match parseAttr heap i a with
    | .err e => .err e
    | .panic => .panic
    | .ok v =>
      match parseAttrs heap i as with
      | .err e => .err e
      | .panic => .panic
      | .ok vs => .ok ((a, v) :: vs)

/-- netcdf/hdf5/hdf5.go:3106-3108: the attributes that are not shown. -/
def hiddenAttrs : List Bytes := [kDimid, kCoordinates, kDimList, kName, kRefList, kClass]

/-- netcdf/hdf5/hdf5.go:3101-3121: the loop of `getAttributes`. -/
def collectAttrs (heap : HeapFn) : List (Attr × Option GoVal) → GoMap GoVal → Res (GoMap GoVal)
  | [], m => .ok m
  | (a, v) :: as, m =>
    if hiddenAttrs.contains a.name then collectAttrs heap as m
    else
      match (match v with | some v => Res.ok v | none => attrRaw heap [0] a) with
      | .err e => .err e
      | .panic => .panic
      | .ok v => collectAttrs heap as (m.set a.name (undoScalar v))

/-- netcdf/hdf5/hdf5.go:3101-3131 `getAttributes`: the keys that are listed, with their values.
`_NCProperties` is hidden: it can be got but is not listed. -/
def getAttributes (heap : HeapFn) (as : List (Attr × Option GoVal)) : Res (GoMap GoVal) :=
  (collectAttrs heap as []).map fun m => m.filter fun p => p.1 ≠ ncpKey

/-- What leaves a call that does not have `defer thrower.RecoverError(&err)`: an error that was thrown
inside is a panic. -/
def escape {α : Type} : Res α → Res α
  | .err _ => .panic
  | r => r

/-- netcdf/hdf5/hdf5.go:2847-2852 `Attributes` of a group. Errors are not recovered. -/
def Group.attributes (s : Src) (g : Group) : Res (GoMap GoVal) :=
  escape <| match parseAttrs (heapLookup s.file) g.obj.info g.obj.info.attrs with
  | .err e => .err e
  | .panic => .panic
  | .ok as => getAttributes (heapLookup s.file) as

/-! ### Dimensions -/

mutual
/-- netcdf/hdf5/hdf5.go:3159-3177 `addrIndex`: the addresses and names of all objects. An address
that occurs twice has the name that comes last. -/
def addrIndex : Obj → List (Nat × Bytes)
  | .mk i kids => (i.addr, i.name) :: addrIndexL kids
/-- The children. -/
def addrIndexL : List Obj → List (Nat × Bytes)
  | [] => []
  | o :: os => addrIndex o ++ addrIndexL os
end

/-- The name of the object at an address; empty when there is none. -/
def nameAt (idx : List (Nat × Bytes)) (addr : Nat) : Bytes := (idx.reverse.lookup addr).getD []

/-- The names of one entry of a `DIMENSION_LIST`: a `[]uint64`. -/
def rowNames (idx : List (Nat × Bytes)) : List GoVal → List Bytes
  | [] => []
  | .num _ addr :: xs =>
    if nameAt idx addr = [] then rowNames idx xs else nameAt idx addr :: rowNames idx xs
  | _ :: xs => rowNames idx xs

/-- netcdf/hdf5/hdf5.go:3188-3200: the value of a `DIMENSION_LIST`, which must be a `[][]uint64`. -/
def dimListNames (idx : List (Nat × Bytes)) : Option GoVal → Res (List Bytes)
  | some (.slice (.slice (.num .u64)) rows) =>
    .ok (rows.flatMap fun r => match r with | .slice _ xs => rowNames idx xs | _ => [])
  | _ => .panic

/-- netcdf/hdf5/hdf5.go:3181-3201: the loop over the attributes. -/
def listedDims (idx : List (Nat × Bytes)) : List (Attr × Option GoVal) → Res (List Bytes)
  | [] => .ok []
  | (a, v) :: as =>
    if a.name = kDimList then
      match dimListNames idx v with
      | .err e => .err e
      | .panic => .panic
      | .ok ns =>
        match listedDims idx as with
        | .err e => .err e
        | .panic => .panic
        | .ok ms => .ok (ns ++ ms)
    else listedDims idx as

mutual
/-- netcdf/hdf5/hdf5.go:3206-3233: all attributes of the whole file are parsed. The value of a
`REFERENCE_LIST` must be a list of compounds, which `attrRaw` never gives. -/
def parseTree (heap : HeapFn) : Obj → Res Unit
  | .mk i kids =>
    match parseAttrs heap i i.attrs with
    | .err e => .err e
    | .panic => .panic
    | .ok as =>
      if as.any (fun p => p.1.name == kRefList) then .panic else parseTreeL heap kids
/-- The children. -/
def parseTreeL (heap : HeapFn) : List Obj → Res Unit
  | [] => .ok ()
  | o :: os =>
    match parseTree heap o with
    | .err e => .err e
    | .panic => .panic
    | .ok _ => parseTreeL heap os
end

/-- netcdf/hdf5/hdf5.go:3234-3243: the dimension of a coordinate variable has its name. -/
def nameDims : List (Attr × Option GoVal) → Res (List Bytes)
  | [] => .ok []
  | (a, v) :: as =>
    if a.name = kName then
      match v with
      | some (.str s) => if dimMarker.isPrefixOf s then nameDims as else .ok [s]
      | _ => .panic
    else nameDims as

/-- netcdf/hdf5/hdf5.go:3179-3246 `getDimensions`. -/
def getDimensions (heap : HeapFn) (root : Obj) (as : List (Attr × Option GoVal)) : Res (List Bytes) :=
  match listedDims (addrIndex root) as with
  | .err e => .err e
  | .panic => .panic
  | .ok [] =>
    match parseTree heap root with
    | .err e => .err e
    | .panic => .panic
    | .ok _ => nameDims as
  | .ok (n :: ns) => .ok (n :: ns)

/-! ### Variables -/

/-- What calls change in an object: `isSlice`, `firstDim`, `lastDim` in `objAttr`, and
`dataBlocks`. -/
structure VSt where
  sl : Sl
  cached : List DBlock
deriving DecidableEq, Repr

/-- The objects that calls have changed, by address. -/
abbrev VTab := List (Nat × VSt)

/-- The state of an object. -/
def VTab.of (t : VTab) (o : Obj) : VSt :=
  (t.lookup o.info.addr).getD ⟨none, o.info.blocks.map Block.toD⟩

/-- Change the state of an object. -/
def VTab.put (t : VTab) (o : Obj) (v : VSt) : VTab := (o.info.addr, v) :: t

/-- `getData` of an object in a given state. An object without type has class and length zero, which
is an error. -/
def objData (s : Src) (o : Obj) (v : VSt) : Res (GoVal × List DBlock) :=
  match o.info.dt with
  | none => .err .assertFail
  | some dt =>
    getData s.inflate s.fuel (heapLookup s.file) s.file o.info dt (o.info.dims.getD []) v.cached v.sl

/-- netcdf/api `Variable`. -/
structure HVariable where
  values : GoVal
  dims : List Bytes
  attrs : GoMap GoVal

/-- netcdf/hdf5/hdf5.go:3261-3263: dimensions and attributes of a variable, which do not depend on
the calls before. -/
def varMeta (s : Src) (root o : Obj) : Res (List Bytes × GoMap GoVal) :=
  let heap := heapLookup s.file
  match parseAttrs heap o.info o.info.attrs with
  | .err e => .err e
  | .panic => .panic
  | .ok as =>
    match getDimensions heap root as with
    | .err e => .err e
    | .panic => .panic
    | .ok dims =>
      match getAttributes heap as with
      | .err e => .err e
      | .panic => .panic
      | .ok attrs => .ok (dims, attrs)

/-- netcdf/hdf5/hdf5.go:3249-3270 `GetVariable`. When `getData` fails, the blocks it found so far are
kept in the code; here they are read again. -/
def Group.getVariable (s : Src) (g : Group) (t : VTab) (name : Bytes) : VTab × Res HVariable :=
  match g.findVariable name with
  | none => (t, .err .notFound)
  | some o =>
    match objData s o (t.of o) with
    | .err e => (t, .err e)
    | .panic => (t, .panic)
    | .ok (v, blocks) =>
      (t.put o ⟨(t.of o).sl, blocks⟩, (varMeta s g.root o).map fun m => ⟨v, m.1, m.2⟩)

/-- What `GetVarGetter` returns. -/
structure HGetter where
  obj : Obj
  dims : List Bytes
  attrs : GoMap GoVal

/-- netcdf/hdf5/hdf5.go:3275-3282, 3344-3354 `GetVarGetter`. -/
def Group.getVarGetter (s : Src) (g : Group) (name : Bytes) : Res HGetter :=
  match g.findVariable name with
  | none => .err .notFound
  | some o => (varMeta s g.root o).map fun m => ⟨o, m.1, m.2⟩

/-- netcdf/hdf5/hdf5.go:3345-3348: `Shape()`. -/
def HGetter.shape (h : HGetter) : List Nat := h.obj.info.dims.getD []

/-- netcdf/hdf5/hdf5.go:3283-3294: `Len()`. -/
def HGetter.len (h : HGetter) : Int :=
  match h.shape with
  | [] => 1
  | d :: _ => i64 d

/-- netcdf/hdf5/hdf5.go:3295-3315 `getSlice`, internal/slicer.go:21-25 `GetSlice`. The bounds stay in the
object. Errors of `getData` are thrown, and recovered in `GetSlice`. -/
def HGetter.getSlice (s : Src) (h : HGetter) (t : VTab) (b e : Int) : VTab × Res GoVal :=
  if b = 0 ∧ e = 1 ∧ h.shape = [] then
    match objData s h.obj (t.of h.obj) with
    | .err e => (t, .err e)
    | .panic => (t, .panic)
    | .ok (v, blocks) => (t.put h.obj ⟨(t.of h.obj).sl, blocks⟩, .ok v)
  else if e < b then (t, .err .invalidSlice)
  else
    let v : VSt := ⟨some (b, e), (t.of h.obj).cached⟩
    (t.put h.obj v, (objData s h.obj v).map (·.1))

/-- internal/slicer.go:33-37 `Values`. -/
def HGetter.values (s : Src) (h : HGetter) (t : VTab) : VTab × Res GoVal := h.getSlice s t 0 h.len

/-- Outcomes in sequence. -/
def resAll {α : Type} : List (Res α) → Res (List α)
  | [] => .ok []
  | r :: rs =>
    match r with
    | .err e => .err e
    | .panic => .panic
    | .ok a =>
      match resAll rs with
      | .err e => .err e
      | .panic => .panic
      | .ok as => .ok (a :: as)

/-- internal/slicer.go:84-109 `sliceRecursive`. The slices of this reader have no capacity behind
their length. -/
def sliceRec : List (Int × Int) → GoVal → Res GoVal
  | [], v => .ok v
  | (b, e) :: rs, .slice t xs =>
    if b < 0 ∨ e < b ∨ (xs.length : Int) < e then .panic
    else
      let ys := (xs.drop b.toNat).take (e - b).toNat
      match rs with
      | [] => .ok (.slice t ys)
      | r :: rs => (resAll (ys.map (sliceRec (r :: rs)))).map (.slice t)
  | _ :: _, v => .ok v

/-- netcdf/hdf5/hdf5.go:3316-3343 `getSliceMD`, and internal/slicer.go:27-31, 79-82. -/
def HGetter.getSliceMD (s : Src) (h : HGetter) (t : VTab) (b e : List Int) : VTab × Res GoVal :=
  if b.length ≠ h.shape.length ∨ e.length ≠ h.shape.length then (t, .err .dimensionality)
  else if (b.zip e).any (fun p => decide (p.2 < p.1)) then (t, .err .invalidSlice)
  else
    match b, e with
    | b0 :: bs, e0 :: es =>
      match h.getSlice s t b0 e0 with
      | (t, .err x) => (t, .err x)
      | (t, .panic) => (t, .panic)
      | (t, .ok v) => (t, sliceRec ((0, i64 (u64 (e0 - b0))) :: bs.zip es) v)
    | _, _ => (t, .panic)

/-! ### Lists -/

mutual
/-- netcdf/hdf5/hdf5.go:3363-3380 `sgDescend` of `ListSubgroups`. The assertion throws an error that
is not recovered. -/
def subDescend (groupName : Bytes) : Obj → Bytes → Res (List Bytes)
  | .mk i kids, group =>
    if i.isGroup = false then .ok []
    else if group ≠ groupName ∧ groupName.isPrefixOf group = true then
      let tail := (group.drop groupName.length).dropLast
      if tail.contains slash then .panic else .ok [tail]
    else subDescendL groupName kids group
/-- The children. -/
def subDescendL (groupName : Bytes) : List Obj → Bytes → Res (List Bytes)
  | [], _ => .ok []
  | .mk i kids :: os, group =>
    match subDescend groupName (.mk i kids) (group ++ i.name ++ [slash]) with
    | .err e => .err e
    | .panic => .panic
    | .ok ns =>
      match subDescendL groupName os group with
      | .err e => .err e
      | .panic => .panic
      | .ok ms => .ok (ns ++ ms)
end

/-- netcdf/hdf5/hdf5.go:3358-3382 `ListSubgroups`. -/
def Group.listSubgroups (g : Group) : Res (List Bytes) := subDescend g.name g.root [slash]

mutual
/-- netcdf/hdf5/hdf5.go:3413-3425: `descend` below one object. -/
def varDescend (g : Group) : Obj → Bytes → List Bytes
  | .mk _ kids, group => varDescendL g kids group
/-- The loop over the children. -/
def varDescendL (g : Group) : List Obj → Bytes → List Bytes
  | [], _ => []
  | .mk i kids :: os, group =>
    (if group = g.name ∧ i.name ≠ [] then
      (if (g.findVariable i.name).isSome then [i.name] else [])
    else varDescend g (.mk i kids) (group ++ i.name ++ [slash])) ++ varDescendL g os group
end

/-- netcdf/hdf5/hdf5.go:3409-3428 `ListVariables`. -/
def Group.listVariables (g : Group) : List Bytes := varDescend g g.root [slash]

/-- netcdf/hdf5/hdf5.go:3034-3038, 3049-3053: is this child a dimension? -/
def isDim (o : Obj) : Bool :=
  o.info.isGroup == false &&
    (classify o.info.attrs).hasClass &&
    ((classify o.info.attrs).hasName || !(classify o.info.attrs).hasCoordinates)

/-- netcdf/hdf5/hdf5.go:3030-3043 `ListDimensions`. -/
def Group.listDimensions (g : Group) : List Bytes := (g.obj.kids.filter isDim).map (·.info.name)

/-- netcdf/hdf5/hdf5.go:3047-3058 `GetDimension`: `none` when there is no such dimension. -/
def Group.getDimension (g : Group) (name : Bytes) : Res (Option Nat) :=
  match g.obj.kids.find? fun o => isDim o && o.info.name == name with
  | none => .ok none
  | some o =>
    match o.info.dims with
    | some (d :: _) => .ok (some d)
    | _ => .panic

/-- The root group of an open file. -/
def rootGroup (o : Obj) : Group := ⟨o, o, [slash]⟩

end Verif.H5
