import Verif.Model.H5Typed
/-!
The calls on an open HDF5 file for values of all types: `Model/H5Api` again, with `allocTy` in place
of `alloc`. Attributes are read once and kept by the code; here they are computed each time, from the
type as it is in the file. What failing calls leave behind is not modelled.
-/
namespace Verif.H5

/-! ### Attributes -/

/-- netcdf/hdf5/hdf5.go:3135-3158 `undoScalarAttribute`. A compound is a slice of its fields. -/
def undoScalarT : TVal → TVal
  | .opaque b => .opaque b
  | .enum v ns ms => .enum (undoScalarT v) ns ms
  | .slice _ [x] => x
  | .compound [n] [v] => .field n v
  | v => v

/-- netcdf/hdf5/hdf5.go:3085-3098, 3111-3117: `getDataAttr` of an attribute; see `attrRaw`. `fill` is
the fill pattern used when the data are short. -/
def attrRawT (cast : DT → Res Unit) (heap : HeapFn) (fill : Bytes) (a : Attr) : Res TVal :=
  let size := dataSize a.dims * a.dt.len % 2 ^ 64
  match a.data with
  | .value s => .ok (.str s)
  | .df b =>
    (onBytes ((b ++ fillStream fill (size - b.length)).take size) (allocTy cast heap a.dt a.dims)).map (·.1)
  | .none => (onBytes (fillStream [0] size) (allocTy cast heap a.dt a.dims)).map (·.1)

/-- netcdf/hdf5/hdf5.go:3085-3098 `parseAttr`: the value that is kept, which is nil for an attribute
without data. -/
def parseAttrT (cast : DT → Res Unit) (heap : HeapFn) (i : Info) (a : Attr) : Res TVal :=
  match a.data with
  | .value s => .ok (.str s)
  | .none => .ok .nil
  | .df _ =>
    match attrFill i with
    | .err e => .err e
    | .panic => .panic
    | .ok fill => attrRawT cast heap fill a

/-- netcdf/hdf5/hdf5.go:3384-3391, the loop of `sortAttrList`: all attributes with their values. -/
def parseAttrsT (cast : DT → Res Unit) (heap : HeapFn) (i : Info) : List Attr → Res (List (Attr × TVal))
  | [] => .ok []
  | a :: as =>
    match parseAttrT cast heap i a with
    | .err e => .err e
    | .panic => .panic
    | .ok v =>
      match parseAttrsT cast heap i as with
      | .err e => .err e
      | .panic => .panic
      | .ok vs => .ok ((a, v) :: vs)

/-- netcdf/hdf5/hdf5.go:3111-3118: the value of one attribute that is shown. `Interface()` of the
`reflect.Value` for nil is a run-time panic. -/
def shownAttr (cast : DT → Res Unit) (heap : HeapFn) (a : Attr) (v : TVal) : Res TVal :=
  match v with
  | .nil =>
    match attrRawT cast heap [0] { a with data := .none } with
    | .err e => .err e
    | .panic => .panic
    | .ok .nil => .panic
    | .ok v => .ok (undoScalarT v)
  | v => .ok (undoScalarT v)

/-- netcdf/hdf5/hdf5.go:3101-3121: the loop of `getAttributes`. -/
def collectAttrsT (cast : DT → Res Unit) (heap : HeapFn) : List (Attr × TVal) → GoMap TVal → Res (GoMap TVal)
  | [], m => .ok m
  | (a, v) :: as, m =>
    if hiddenAttrs.contains a.name then collectAttrsT cast heap as m
    else
      match shownAttr cast heap a v with
      | .err e => .err e
      | .panic => .panic
      | .ok v => collectAttrsT cast heap as (m.set a.name v)

/-- netcdf/hdf5/hdf5.go:3101-3131 `getAttributes`; see `getAttributes`. -/
def getAttributesT (cast : DT → Res Unit) (heap : HeapFn) (as : List (Attr × TVal)) : Res (GoMap TVal) :=
  (collectAttrsT cast heap as []).map fun m => m.filter fun p => p.1 ≠ ncpKey

/-- netcdf/hdf5/hdf5.go:2847-2852 `Attributes` of a group. Errors are not recovered. -/
def Group.attributesT (cast : DT → Res Unit) (s : Src) (g : Group) : Res (GoMap TVal) :=
  escape <| match parseAttrsT cast (heapLookup s.file) g.obj.info g.obj.info.attrs with
  | .err e => .err e
  | .panic => .panic
  | .ok as => getAttributesT cast (heapLookup s.file) as

/-! ### Dimensions -/

/-- The names of one entry of a `DIMENSION_LIST`: a `[]uint64`. -/
def rowNamesT (idx : List (Nat × Bytes)) : List TVal → List Bytes
  | [] => []
  | .num _ addr :: xs =>
    if nameAt idx addr = [] then rowNamesT idx xs else nameAt idx addr :: rowNamesT idx xs
  | _ :: xs => rowNamesT idx xs

/-- netcdf/hdf5/hdf5.go:3188-3200: the value of a `DIMENSION_LIST`, which must be a `[][]uint64`. -/
def dimListNamesT (idx : List (Nat × Bytes)) : TVal → Res (List Bytes)
  | .slice (.slice (.num .u64)) rows =>
    .ok (rows.flatMap fun r => match r with | .slice _ xs => rowNamesT idx xs | _ => [])
  | _ => .panic

/-- netcdf/hdf5/hdf5.go:3181-3201: the loop over the attributes. -/
def listedDimsT (idx : List (Nat × Bytes)) : List (Attr × TVal) → Res (List Bytes)
  | [] => .ok []
  | (a, v) :: as =>
    if a.name = kDimList then
      match dimListNamesT idx v with
      | .err e => .err e
      | .panic => .panic
      | .ok ns =>
        match listedDimsT idx as with
        | .err e => .err e
        | .panic => .panic
        | .ok ms => .ok (ns ++ ms)
    else listedDimsT idx as

/-- netcdf/hdf5/hdf5.go:3216-3227: the value of a `REFERENCE_LIST` must be a `[]compound` whose first
members are an address and a 32-bit number. -/
def refListOK : TVal → Bool
  | .slice .compound xs => xs.all fun x =>
    match x with
    | .compound _ (.num .u64 _ :: .num .i32 _ :: _) => true
    | .compound _ (.num .u64 _ :: .num .u32 _ :: _) => true
    | _ => false
  | _ => false

mutual
/-- netcdf/hdf5/hdf5.go:3206-3233: all attributes of the whole file are parsed. -/
def parseTreeT (cast : DT → Res Unit) (heap : HeapFn) : Obj → Res Unit
  | .mk i kids =>
    match parseAttrsT cast heap i i.attrs with
    | .err e => .err e
    | .panic => .panic
    | .ok as =>
      if as.all (fun p => p.1.name != kRefList || refListOK p.2) then parseTreeTL cast heap kids else .panic
/-- The children. -/
def parseTreeTL (cast : DT → Res Unit) (heap : HeapFn) : List Obj → Res Unit
  | [] => .ok ()
  | o :: os =>
    match parseTreeT cast heap o with
    | .err e => .err e
    | .panic => .panic
    | .ok _ => parseTreeTL cast heap os
end

/-- netcdf/hdf5/hdf5.go:3234-3243: the dimension of a coordinate variable has its name. -/
def nameDimsT : List (Attr × TVal) → Res (List Bytes)
  | [] => .ok []
  | (a, v) :: as =>
    if a.name = kName then
      match v with
      | .str s => if dimMarker.isPrefixOf s then nameDimsT as else .ok [s]
      | _ => .panic
    else nameDimsT as

/-- netcdf/hdf5/hdf5.go:3179-3246 `getDimensions`. -/
def getDimensionsT (cast : DT → Res Unit) (heap : HeapFn) (root : Obj) (as : List (Attr × TVal)) : Res (List Bytes) :=
  match listedDimsT (addrIndex root) as with
  | .err e => .err e
  | .panic => .panic
  | .ok [] =>
    match parseTreeT cast heap root with
    | .err e => .err e
    | .panic => .panic
    | .ok _ => nameDimsT as
  | .ok (n :: ns) => .ok (n :: ns)

/-! ### Variables -/

/-- What calls change in an object: `isSlice`, `firstDim`, `lastDim`, `dataBlocks` and the type. -/
structure TSt where
  sl : Sl
  cached : List DBlock
  dt : Option DT

/-- The state of an object after opening. -/
def TSt.fresh (o : Obj) : TSt := ⟨none, o.info.blocks.map Block.toD, o.info.dt⟩

/-- The objects that calls have changed, by address. -/
abbrev TTab := List (Nat × TSt)

/-- The state of an object. -/
def TTab.of (t : TTab) (o : Obj) : TSt := (t.lookup o.info.addr).getD (TSt.fresh o)

/-- Change the state of an object. -/
def TTab.put (t : TTab) (o : Obj) (v : TSt) : TTab := (o.info.addr, v) :: t

/-- netcdf/hdf5/hdf5.go:2693-2755 `getData`, with the type as it is afterwards. -/
def getDataT (cast : DT → Res Unit) (s : Src) (i : Info) (dt : DT) (dims : List Nat) (cached : List DBlock) (sl : Sl) :
    Res (TVal × List DBlock × DT) := do
  let (b, blocks) ← dataBytes s.inflate s.fuel s.file i dt dims cached sl
  let (v, dt) ← onBytes b (allocTy cast (heapLookup s.file) dt (sliceDims dims sl))
  pure (v, blocks, dt)

/-- `getData` of an object in a given state. -/
def objDataT (cast : DT → Res Unit) (s : Src) (o : Obj) (v : TSt) : Res (TVal × TSt) :=
  match v.dt with
  | none => .err .assertFail
  | some dt =>
    match getDataT cast s o.info dt (o.info.dims.getD []) v.cached v.sl with
    | .err e => .err e
    | .panic => .panic
    | .ok (x, blocks, dt) => .ok (x, ⟨v.sl, blocks, some dt⟩)

/-- netcdf/api `Variable`. -/
structure TVariable where
  values : TVal
  dims : List Bytes
  attrs : GoMap TVal

/-- netcdf/hdf5/hdf5.go:3261-3263: dimensions and attributes of a variable. -/
def varMetaT (cast : DT → Res Unit) (s : Src) (root o : Obj) : Res (List Bytes × GoMap TVal) :=
  let heap := heapLookup s.file
  match parseAttrsT cast heap o.info o.info.attrs with
  | .err e => .err e
  | .panic => .panic
  | .ok as =>
    match getDimensionsT cast heap root as with
    | .err e => .err e
    | .panic => .panic
    | .ok dims =>
      match getAttributesT cast heap as with
      | .err e => .err e
      | .panic => .panic
      | .ok attrs => .ok (dims, attrs)

/-- netcdf/hdf5/hdf5.go:3249-3270 `GetVariable`. -/
def Group.getVariableT (cast : DT → Res Unit) (s : Src) (g : Group) (t : TTab) (name : Bytes) : TTab × Res TVariable :=
  match g.findVariable name with
  | none => (t, .err .notFound)
  | some o =>
    match objDataT cast s o (t.of o) with
    | .err e => (t, .err e)
    | .panic => (t, .panic)
    | .ok (.nil, st) => (t.put o st, .err .notFound)
    | .ok (v, st) => (t.put o st, (varMetaT cast s g.root o).map fun m => ⟨v, m.1, m.2⟩)

/-- netcdf/hdf5/hdf5.go:3295-3315: `GetSlice` of a getter for the variable `o`. The bounds stay in the
object. Errors of `getData` are thrown, and recovered in internal/slicer.go:21-25 `GetSlice`. -/
def Obj.getSliceT (cast : DT → Res Unit) (s : Src) (o : Obj) (t : TTab) (b e : Int) : TTab × Res TVal :=
  if b = 0 ∧ e = 1 ∧ o.info.dims.getD [] = [] then
    match objDataT cast s o (t.of o) with
    | .err e => (t, .err e)
    | .panic => (t, .panic)
    | .ok (.nil, st) => (t.put o st, .err .notFound)
    | .ok (v, st) => (t.put o st, .ok v)
  else if e < b then (t, .err .invalidSlice)
  else
    let v : TSt := { t.of o with sl := some (b, e) }
    match objDataT cast s o v with
    | .err e => (t.put o v, .err e)
    | .panic => (t.put o v, .panic)
    | .ok (.nil, _) => (t.put o v, .err .notFound)
    | .ok (x, st) => (t.put o { v with dt := st.dt }, .ok x)

end Verif.H5
