import Verif.Model.OrderedMap
import Verif.Model.CdfWriter
import Verif.Model.H5Value
import Verif.Model.H5Object
/-!
The HDF5 writer as a whole: netcdf/hdf5/hdf5writer.go:21-419, 493-517, 594-613, 684-698, 770-802,
1053-1287 and netcdf/hdf5/writer_utils.go:565-612.

Pointers to groups and variables are paths: groups are never removed or replaced. What the code
stores in the objects while it closes the file (`addr`, `vlenHeapIndices`, `attrVlenIndices`) is in
tables with these paths as keys.

The code visits the groups and variables in the order in which Go ranges over maps, which is not
specified, in five places. Here `ord` gives the order of each of these passes: any permutation of
everything that is visited. This includes all orders that nested `range` loops can produce.

A panic because of a nil attribute map (`NewOrderedMap` fails and the error is ignored) comes a
little later in the code than here.
-/
namespace Verif.H5

/-- The attributes of a group or variable when the file is closed: `Keys()` in order, with
`Get` of each; `none` is a nil interface. -/
abbrev HAttrs := Option (List (Bytes × GoVal))

/-- netcdf/hdf5/hdf5writer.go:23-32 `h5Var`. -/
structure HVar where
  name : Bytes
  val : GoVal
  dims : List Bytes
  attrs : HAttrs
  isScale : Bool := false

/-- netcdf/hdf5/hdf5writer.go:34-41 `h5Group`, without the subgroups. -/
structure GInfo where
  name : Bytes
  vars : List HVar := []
  attrs : HAttrs := none

/-- netcdf/hdf5/hdf5writer.go:34-41 `h5Group`. The maps are lists in which no name occurs twice. -/
inductive HGroup
  | mk (info : GInfo) (subs : List HGroup)

/-- The fields of a group. -/
def HGroup.info : HGroup → GInfo
  | .mk i _ => i
/-- The subgroups. -/
def HGroup.subs : HGroup → List HGroup
  | .mk _ s => s
/-- The name of a group. -/
def HGroup.name (g : HGroup) : Bytes := g.info.name

/-! ### Adding groups, variables and attributes -/

/-- netcdf/hdf5/hdf5writer.go:1232-1255 `isSupportedElemType`. -/
def supportedTy (t : GoTy) : Bool :=
  match baseTy t with
  | .other _ => false
  | _ => true

mutual
/-- netcdf/hdf5/hdf5writer.go:1183-1230 `isSupportedType`: the first element decides. -/
def supported : GoVal → Bool
  | .num .. | .str _ => true
  | .slice e xs => supportedHead e xs
  | .other _ => false
  | .user v => supportedT v
/-- The first element, or the type of the elements. -/
def supportedHead (e : GoTy) : List GoVal → Bool
  | [] => supportedTy e
  | x :: _ => supported x
end

/-- `Keys()` and `Get` of each key; a missing value is not supported and `AddVar` and
`AddAttributes` fail (1058-1063, 1080-1085). -/
def attrPairs : Attrs → Res HAttrs
  | none => .ok none
  | some om =>
    if om.visibleKeys.all fun k => (om.get k).any supported then
      .ok (some (om.visibleKeys.filterMap fun k => (om.get k).map (k, ·)))
    else .err .unsupported

/-- `g.vars[name] = v`. -/
def setVar (vars : List HVar) (v : HVar) : List HVar :=
  if vars.any (·.name == v.name) then vars.map fun w => if w.name = v.name then v else w
  else vars ++ [v]

/-- Change the group at a path. -/
def HGroup.modify (f : HGroup → HGroup) : List Bytes → HGroup → HGroup
  | [], g => f g
  | n :: p, .mk i subs => .mk i (subs.map fun s => if s.name = n then s.modify f p else s)

/-- The group at a path. -/
def HGroup.at? : List Bytes → HGroup → Option HGroup
  | [], g => some g
  | n :: p, .mk _ subs =>
    match subs.find? (·.name == n) with
    | some s => s.at? p
    | none => none

/-- netcdf/hdf5/hdf5writer.go:1069-1094, 1137-1162: `AddVar` of the group at `path`. -/
def addVarH (u : UniTables) (root : HGroup) (path : List Bytes) (name : Bytes) (val : GoVal)
    (dims : List Bytes) (attrs : Attrs) : Res HGroup :=
  if isValidName u name = false ∨ Cdf.hasValidNames u attrs = false then .err .invalidName
  else if supported val = false then .err .unsupported
  else
    match attrPairs attrs with
    | .err e => .err e
    | .panic => .panic
    | .ok as => .ok (root.modify (fun g =>
        .mk { g.info with vars := setVar g.info.vars ⟨name, val, dims, as, false⟩ } g.subs) path)

/-- netcdf/hdf5/hdf5writer.go:1053-1067, 1121-1135: `AddAttributes` of the group at `path`. -/
def addAttributesH (u : UniTables) (root : HGroup) (path : List Bytes) (attrs : Attrs) : Res HGroup :=
  if Cdf.hasValidNames u attrs = false then .err .invalidName
  else
    match attrPairs attrs with
    | .err e => .err e
    | .panic => .panic
    | .ok as => .ok (root.modify (fun g => .mk { g.info with attrs := as } g.subs) path)

/-- netcdf/hdf5/hdf5writer.go:1096-1110, 1164-1178: `CreateGroup` of the group at `path`. -/
def createGroupH (u : UniTables) (root : HGroup) (path : List Bytes) (name : Bytes) : Res HGroup :=
  if isValidName u name = false then .err .invalidName
  else .ok (root.modify (fun g =>
    if g.subs.any (·.name == name) then g else .mk g.info (g.subs ++ [.mk { name := name } []])) path)

/-- netcdf/hdf5/hdf5writer.go:1269-1287: the root group of a new writer. -/
def newRoot : HGroup := .mk { name := ascii "/", attrs := some [] } []

/-! ### Order -/

/-- Insertion into a list sorted by name. -/
def insertBy {α : Type} (key : α → Bytes) (x : α) : List α → List α
  | [] => [x]
  | y :: ys => if strLe (key x) (key y) then x :: y :: ys else y :: insertBy key x ys

/-- `slices.Sort(names)`, then one lookup for each name. -/
def sortBy {α : Type} (key : α → Bytes) : List α → List α
  | [] => []
  | x :: xs => insertBy key x (sortBy key xs)

mutual
/-- The group with its variables and its subgroups in the order in which the writer takes them
where it sorts the names. -/
def sortG : HGroup → HGroup
  | .mk i subs => .mk { i with vars := sortBy HVar.name i.vars } (sortBy HGroup.name (sortGs subs))
/-- The subgroups. -/
def sortGs : List HGroup → List HGroup
  | [] => []
  | g :: gs => sortG g :: sortGs gs
end

/-- What the passes over the file visit: a variable, or a group with its attributes. -/
inductive Visit
  | var (path : List Bytes) (v : HVar)
  | grp (path : List Bytes) (attrs : HAttrs)

mutual
/-- All groups and variables. -/
def visits (path : List Bytes) : HGroup → List Visit
  | .mk i subs => i.vars.map (.var path) ++ [.grp path i.attrs] ++ visitsL path subs
/-- The subgroups. -/
def visitsL (path : List Bytes) : List HGroup → List Visit
  | [] => []
  | g :: gs => visits (path ++ [g.name]) g ++ visitsL path gs
end

/-! ### Metadata -/

/-- "_NCProperties" -/
def ncpKey : Bytes := ascii "_NCProperties"
/-- "CLASS" -/
def kClass : Bytes := ascii "CLASS"
/-- "NAME" -/
def kName : Bytes := ascii "NAME"
/-- "_Netcdf4Dimid" -/
def kDimid : Bytes := ascii "_Netcdf4Dimid"
/-- "DIMENSION_LIST" -/
def kDimList : Bytes := ascii "DIMENSION_LIST"

/-- The attributes with these keys from this map: `util.NewOrderedMap`, whose failure leaves a nil
map behind. -/
def newAttrs (keys : List Bytes) (vals : GoMap GoVal) : Res HAttrs :=
  match OMap.new keys vals with
  | .ok om => .ok (some (om.visibleKeys.filterMap fun k => (om.get k).map (k, ·)))
  | _ => .panic

/-- netcdf/hdf5/hdf5writer.go:121-132 `addNCProperties`. -/
def addNCProperties (attrs : HAttrs) : Res HAttrs :=
  match attrs with
  | none => .panic
  | some ps =>
    newAttrs (ps.map (·.1) ++ [ncpKey])
      (GoMap.set (ps.foldl (fun m p => GoMap.set m p.1 p.2) []) ncpKey
        (.str (ascii "version=2,github.com/batchatco/go-native-netcdf=1.0")))

/-- netcdf/hdf5/hdf5writer.go:157-168: the dimensions of one variable, from position `i`. -/
def addDims (shape : List Nat) : Nat → List Bytes → List (Bytes × Nat) → List (Bytes × Nat)
  | _, [], acc => acc
  | i, d :: ds, acc =>
    addDims shape (i + 1) ds
      (if d = [] ∨ acc.any (·.1 == d) then acc else acc ++ [(d, (shape[i]?).getD 0)])

/-- netcdf/hdf5/hdf5writer.go:152-169: the variables of a group. -/
def addVarDims : List HVar → List (Bytes × Nat) → List (Bytes × Nat)
  | [], acc => acc
  | v :: vs, acc =>
    addVarDims vs (if v.isScale then acc else addDims (getDims v.val) 0 v.dims acc)

mutual
/-- netcdf/hdf5/hdf5writer.go:145-178 `collectDims`, on a sorted group. -/
def collectDims : HGroup → List (Bytes × Nat) → List (Bytes × Nat)
  | .mk i subs, acc => collectDimsL subs (addVarDims i.vars acc)
/-- The subgroups. -/
def collectDimsL : List HGroup → List (Bytes × Nat) → List (Bytes × Nat)
  | [], acc => acc
  | g :: gs, acc => collectDimsL gs (collectDims g acc)
end

/-- `int32(i)` -/
def dimid (i : Nat) : GoVal := .num .i32 (i % 2 ^ 32)

/-- netcdf/hdf5/hdf5writer.go:207: "%10d" -/
def notAVariable (size : Nat) : Bytes :=
  ascii "This is a netCDF dimension but not a netCDF variable." ++
    (List.replicate (10 - (decDigits size).length) 32 ++ decDigits size)

/-- netcdf/hdf5/hdf5writer.go:186-204: a coordinate variable becomes a dimension scale. -/
def promote (i : Nat) (v : HVar) : Res HVar :=
  let ps := v.attrs.getD []
  match newAttrs ([kClass, kName, kDimid] ++ ps.map (·.1))
      (ps.foldl (fun m p => GoMap.set m p.1 p.2)
        [(kClass, .str (ascii "DIMENSION_SCALE")), (kName, .str v.name), (kDimid, dimid i)]) with
  | .ok as => .ok { v with attrs := as, isScale := true }
  | .err e => .err e
  | .panic => .panic

/-- netcdf/hdf5/hdf5writer.go:206-222: a dimension without a variable. -/
def synthetic (i : Nat) (d : Bytes) (size : Nat) : HVar :=
  { name := d
    val := .slice (.num .i8) (List.replicate size (.num .i8 0))
    dims := [d]
    attrs := some [(kClass, .str (ascii "DIMENSION_SCALE")), (kName, .str (notAVariable size)),
      (kDimid, dimid i)]
    isScale := true }

/-- netcdf/hdf5/hdf5writer.go:185-224: the dimension scales, from number `i`. -/
def makeScales : Nat → List (Bytes × Nat) → List HVar → Res (List HVar)
  | _, [], vars => .ok vars
  | i, (d, size) :: ds, vars =>
    match vars.find? (·.name == d) with
    | some v =>
      if v.isScale then makeScales (i + 1) ds (setVar vars (synthetic i d size))
      else
        match promote i v with
        | .ok w => makeScales (i + 1) ds (setVar vars w)
        | .err e => .err e
        | .panic => .panic
    | none => makeScales (i + 1) ds (setVar vars (synthetic i d size))

/-- netcdf/hdf5/hdf5writer.go:120-225: the root group with its metadata. -/
def addMetadata : HGroup → Res HGroup
  | .mk i subs =>
    match addNCProperties i.attrs with
    | .err e => .err e
    | .panic => .panic
    | .ok as =>
      match makeScales 0 (collectDims (sortG (.mk i subs)) []) i.vars with
      | .err e => .err e
      | .panic => .panic
      | .ok vars => .ok (.mk { i with attrs := as, vars := vars } subs)

/-! ### Collecting what goes to the heap -/

/-- The indices of variable-length elements of variables, by path and name (the newest first). -/
abbrev VarTable := List ((List Bytes × Bytes) × List Nat)
/-- The indices of variable-length elements of attributes, by path, variable and key. -/
abbrev AttrTable := List ((List Bytes × Option Bytes × Bytes) × List Nat)

/-- netcdf/hdf5/hdf5writer.go:597-607: the attributes. -/
def collectAttrStrings (h : Heap) (as : HAttrs) : Heap :=
  (as.getD []).foldl (fun h p => collectStrings h p.2) h

/-- netcdf/hdf5/hdf5writer.go:594-613 `collectStrings`. -/
def passStrings : List Visit → Heap → Heap
  | [], h => h
  | .var _ v :: vs, h => passStrings vs (collectAttrStrings (collectStrings h v.val) v.attrs)
  | .grp _ as :: vs, h => passStrings vs (collectAttrStrings h as)

/-- netcdf/hdf5/hdf5writer.go:684-698 `collectVlenData`. -/
def passVlens (be : Bool) : List Visit → Heap × VarTable → Res (Heap × VarTable)
  | [], x => .ok x
  | .var p v :: vs, (h, t) =>
    match collectVar be h v.val v.dims.length with
    | .err e => .err e
    | .panic => .panic
    | .ok (h, is) => passVlens be vs (h, ((p, v.name), is) :: t)
  | .grp .. :: vs, x => passVlens be vs x

/-- netcdf/hdf5/hdf5writer.go:772-784, 787-797: the attributes of one variable or group. -/
def attrVlens (be : Bool) (path : List Bytes) (var : Option Bytes) :
    List (Bytes × GoVal) → Heap × AttrTable → Res (Heap × AttrTable)
  | [], x => .ok x
  | (k, v) :: ps, (h, t) =>
    match collectAttrVlen be h v with
    | .err e => .err e
    | .panic => .panic
    | .ok (h, is) =>
      attrVlens be path var ps (h, if is = [] then t else ((path, var, k), is) :: t)

/-- netcdf/hdf5/hdf5writer.go:770-802 `collectAttrVlenData`. -/
def passAttrVlens (be : Bool) : List Visit → Heap × AttrTable → Res (Heap × AttrTable)
  | [], x => .ok x
  | .var p v :: vs, x =>
    match attrVlens be p (some v.name) (v.attrs.getD []) x with
    | .err e => .err e
    | .panic => .panic
    | .ok x => passAttrVlens be vs x
  | .grp p as :: vs, x =>
    match attrVlens be p none (as.getD []) x with
    | .err e => .err e
    | .panic => .panic
    | .ok x => passAttrVlens be vs x

/-- netcdf/hdf5/hdf5writer.go:259-275: the dimensions of one variable. -/
def addRefs (dimAddrs : GoMap Nat) : List Bytes → Heap → Heap
  | [], h => h
  | d :: ds, h =>
    addRefs dimAddrs ds
      (if d = [] then h
      else match dimAddrs.get d with
        | some a => h.addDimRef d a
        | none => h)

/-- netcdf/hdf5/hdf5writer.go:254-280 `collectDimReferences`. -/
def passRefs (dimAddrs : GoMap Nat) : List Visit → Heap → Heap
  | [], h => h
  | .var _ v :: vs, h => passRefs dimAddrs vs (if v.isScale then h else addRefs dimAddrs v.dims h)
  | .grp .. :: vs, h => passRefs dimAddrs vs h

/-! ### Writing objects -/

/-- What the functions that write objects use: `hw.heap` (`none` while the dimension scales are
written), `hw.dimAddrs` and the two tables. -/
structure Env where
  be : Bool
  heap : Option Heap
  dimAddrs : GoMap Nat
  vlens : VarTable
  attrVlens : AttrTable

/-- netcdf/hdf5/hdf5writer.go:348-359, 397-408: the attribute messages. -/
def attrMsgs (env : Env) (path : List Bytes) (var : Option Bytes) :
    List (Bytes × GoVal) → Res (List Msg)
  | [] => .ok []
  | (k, v) :: ps =>
    match attrMessage env.be env.heap ((env.attrVlens.lookup (path, var, k)).getD []) k v with
    | .err e => .err e
    | .panic => .panic
    | .ok b =>
      match attrMsgs env path var ps with
      | .err e => .err e
      | .panic => .panic
      | .ok ms => .ok (⟨12, b⟩ :: ms)

/-- netcdf/hdf5/writer_utils.go:565-612 `buildDimensionListAttribute`, with the condition of
netcdf/hdf5/hdf5writer.go:411: no message or one. -/
def dimListMsg (env : Env) (v : HVar) : List Msg :=
  match env.heap with
  | none => []
  | some h =>
    if v.isScale = false ∧ v.dims ≠ [] ∧
        v.dims.all (fun d => d ≠ [] && (env.dimAddrs.get d).isSome) = true then
      [⟨12, buildAttr kDimList ((WTy.vlenSeq .ref).bytes env.be) (buildDataspace [v.dims.length])
        (v.dims.flatMap fun d => descriptor 1 h.addr ((h.indices.get (dimRefKey d)).getD 0))⟩]
    else []

/-- netcdf/hdf5/hdf5writer.go:381-416: the messages of a variable. -/
def varMsgs (env : Env) (path : List Bytes) (v : HVar) (dataAddr dataSize : Nat) : Res (List Msg) :=
  match datatypeOf v.val v.dims.length with
  | .err e => .err e
  | .panic => .panic
  | .ok t =>
    match attrMsgs env path (some v.name) (v.attrs.getD []) with
    | .err e => .err e
    | .panic => .panic
    | .ok as =>
      .ok ([⟨1, buildDataspace (getDimsLimited v.val v.dims.length)⟩, ⟨3, t.bytes env.be⟩,
        ⟨8, buildLayout dataAddr dataSize⟩] ++ as ++ dimListMsg env v)

/-- netcdf/hdf5/hdf5writer.go:493-517, 381-419: the data and the header of a variable; the new
buffer and the address of the header. -/
def writeVar (env : Env) (path : List Bytes) (buf : Bytes) (v : HVar) : Res (Bytes × Nat) :=
  match writeVal env.be env.heap (fixedLen v.val) v.val v.dims.length
      ((env.vlens.lookup (path, v.name)).getD []) with
  | .err e => .err e
  | .panic => .panic
  | .ok (data, _) =>
    match varMsgs env path v buf.length data.length with
    | .err e => .err e
    | .panic => .panic
    | .ok ms =>
      match objectHeader ms with
      | .err e => .err e
      | .panic => .panic
      | .ok hdr =>
        let b := writePadded buf data
        .ok (b ++ hdr, b.length)

/-- netcdf/hdf5/hdf5writer.go:228-250 `writeDimScaleContents` of the root group, whose variables are
sorted. There are no dimension scales in other groups, because `createDimensionScales` works on the
root group only. -/
def writeScales (be : Bool) : List HVar → Bytes × GoMap Nat → Res (Bytes × GoMap Nat)
  | [], x => .ok x
  | v :: vs, (buf, da) =>
    if v.isScale then
      match writeVar ⟨be, none, da, [], []⟩ [] buf v with
      | .err e => .err e
      | .panic => .panic
      | .ok (buf, addr) => writeScales be vs (buf, da.set v.name addr)
    else writeScales be vs (buf, da)

/-- netcdf/hdf5/hdf5writer.go:286-301: the data variables of a sorted group; the addresses of all
its variables. -/
def writeVars (env : Env) (path : List Bytes) : Bytes → List HVar →
    Res (Bytes × List (Bytes × Nat))
  | buf, [] => .ok (buf, [])
  | buf, v :: vs =>
    if v.isScale then
      match writeVars env path buf vs with
      | .err e => .err e
      | .panic => .panic
      | .ok (buf, ls) => .ok (buf, (v.name, (env.dimAddrs.get v.name).getD 0) :: ls)
    else
      match writeVar env path buf v with
      | .err e => .err e
      | .panic => .panic
      | .ok (buf, addr) =>
        match writeVars env path buf vs with
        | .err e => .err e
        | .panic => .panic
        | .ok (buf, ls) => .ok (buf, (v.name, addr) :: ls)

/-- netcdf/hdf5/hdf5writer.go:317-361: the messages of a group. -/
def groupMsgs (env : Env) (path : List Bytes) (attrs : HAttrs) (links : List (Bytes × Nat)) :
    Res (List Msg) :=
  match attrMsgs env path none (attrs.getD []) with
  | .err e => .err e
  | .panic => .panic
  | .ok as =>
    .ok ([⟨2, buildLinkInfo⟩, ⟨10, [0, 0]⟩] ++ links.map (fun l => ⟨6, buildLink l.1 l.2⟩) ++ as)

/-- netcdf/hdf5/hdf5writer.go:317-362 `writeGroupObjectHeaderV2`. -/
def groupHeader (env : Env) (path : List Bytes) (attrs : HAttrs) (links : List (Bytes × Nat)) :
    Res Bytes :=
  match groupMsgs env path attrs links with
  | .err e => .err e
  | .panic => .panic
  | .ok ms => objectHeader ms

mutual
/-- netcdf/hdf5/hdf5writer.go:282-315 `writeGroupContents` of a sorted group: the new buffer and the
addresses of its members. -/
def writeContents (env : Env) (path : List Bytes) : Bytes → HGroup →
    Res (Bytes × List (Bytes × Nat))
  | buf, .mk i subs =>
    match writeVars env path buf i.vars with
    | .err e => .err e
    | .panic => .panic
    | .ok (buf, l1) =>
      match writeSubs env path buf subs with
      | .err e => .err e
      | .panic => .panic
      | .ok (buf, l2) => .ok (buf, l1 ++ l2)
/-- The subgroups. -/
def writeSubs (env : Env) (path : List Bytes) : Bytes → List HGroup →
    Res (Bytes × List (Bytes × Nat))
  | buf, [] => .ok (buf, [])
  | buf, g :: gs =>
    match writeContents env (path ++ [g.name]) buf g with
    | .err e => .err e
    | .panic => .panic
    | .ok (buf1, links) =>
      match groupHeader env (path ++ [g.name]) g.info.attrs links with
      | .err e => .err e
      | .panic => .panic
      | .ok hdr =>
        match writeSubs env path (buf1 ++ hdr) gs with
        | .err e => .err e
        | .panic => .panic
        | .ok (buf, ls) => .ok (buf, (g.name, buf1.length) :: ls)
end

/-! ### Close -/

/-- The orders of the passes. -/
abbrev Order := Nat → List Visit → List Visit

/-- netcdf/hdf5/hdf5writer.go:86-90: the heap and the tables. -/
def collect (be : Bool) (ord : Order) (da : GoMap Nat) (root : HGroup) :
    Res (Heap × VarTable × AttrTable) :=
  let vs := visits [] root
  match passVlens be (ord 1 vs) (passStrings (ord 0 vs) ⟨0, [], []⟩, []) with
  | .err e => .err e
  | .panic => .panic
  | .ok (h, t1) =>
    match passAttrVlens be (ord 2 vs) (h, []) with
    | .err e => .err e
    | .panic => .panic
    | .ok (h, t2) => .ok (passRefs da (ord 3 vs) h, t1, t2)

/-- netcdf/hdf5/hdf5writer.go:91-93: the heap is written when it has objects. -/
def placeHeap (buf : Bytes) (h : Heap) : Bytes × Heap :=
  if h.objects = [] then (buf, h)
  else
    let r := writeGlobalHeap buf h.objects
    (r.1, { h with addr := r.2 })

/-- netcdf/hdf5/hdf5writer.go:66-118 `Close`: the bytes of the file. -/
def closeFile (be : Bool) (ord : Order) (root : HGroup) : Res Bytes :=
  match addMetadata root with
  | .err e => .err e
  | .panic => .panic
  | .ok root =>
    match writeScales be (sortBy HVar.name root.info.vars) (superblockV2, []) with
    | .err e => .err e
    | .panic => .panic
    | .ok (buf, da) =>
      match collect be ord da root with
      | .err e => .err e
      | .panic => .panic
      | .ok (h, t1, t2) =>
        let x := placeHeap buf h
        let env : Env := ⟨be, some x.2, da, t1, t2⟩
        match writeContents env [] x.1 (sortG root) with
        | .err e => .err e
        | .panic => .panic
        | .ok (buf, links) =>
          match groupHeader env [] root.info.attrs links with
          | .err e => .err e
          | .panic => .panic
          | .ok hdr => finalizeSuperblock (buf ++ hdr) buf.length

/-- A writer: the root group and the flag `closed`. -/
structure HState where
  root : HGroup := newRoot
  closed : Bool := false

/-- netcdf/hdf5/hdf5writer.go:66-118: the writer after `Close`, and the outcome: the bytes that go to
the file, or `none` when nothing is written because the writer is closed already. -/
def HState.close (be : Bool) (ord : Order) (s : HState) : HState × Res (Option Bytes) :=
  if s.closed then (s, .ok none)
  else ({ s with closed := true }, (closeFile be ord s.root).map some)

end Verif.H5
