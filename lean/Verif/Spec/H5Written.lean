import Verif.Spec.H5Others
import Verif.Spec.H5Vars
import Verif.Spec.H5File
import Verif.Spec.H5Path
import Verif.Spec.H5Lift
/-!
What a file that was written has to contain, in terms of the HDF5 file format specification and the
conventions of netCDF-4 for dimensions. Written without the writer and without the reader; `Info`
and `Obj` are only the data that describe an object and a tree of objects (Spec/H5Others).
-/
namespace Verif.H5

/-! ### Global heaps -/

namespace Fmt

/-- An object of a global heap: its index, its reference count and its bytes. -/
structure HeapItem where
  index : Nat
  refs : Nat
  data : Bytes

/-- III.E: index, reference count, reserved bytes, size, and the data up to a multiple of eight. -/
def HeapItem.bytes (x : HeapItem) : Bytes :=
  num 2 x.index ++ num 2 x.refs ++ num 4 0 ++ num 8 x.data.length ++ padded x.data

/-- III.E: the free space behind the objects is object 0, whose size includes its header; a rest too
small for a header has no structure. -/
def freeSpace (rest : Bytes) (header : Bool) : Bytes :=
  if header then num 2 0 ++ num 2 0 ++ num 4 0 ++ num 8 (16 + rest.length) ++ rest else rest

/-- III.E: a global heap collection. -/
def collection (xs : List HeapItem) (free : Bytes) : Bytes :=
  [0x47, 0x43, 0x4f, 0x4c] ++ num 1 1 ++ num 3 0 ++ num 8 (16 + (xs.flatMap HeapItem.bytes).length + free.length) ++
    xs.flatMap HeapItem.bytes ++ free

/-- A collection with these objects is in the file. No index is zero or used twice. -/
structure CollectionAt (file : Bytes) (addr : Nat) (xs : List HeapItem) : Prop where
  index : ∀ x ∈ xs, 0 < x.index ∧ x.index < 65536 ∧ x.refs < 65536
  nodup : (xs.map (·.index)).Nodup
  bytes : ∃ rest header, (header = false → rest.length < 16) ∧ At file addr (collection xs (freeSpace rest header))

end Fmt

/-- `heap` finds the objects of all collections in the file whose reference counts are zero, as the
HDF5 library writes them; an object without bytes is nothing. -/
def HeapFinds (file : Bytes) (heap : HeapFn) : Prop :=
  ∀ addr xs x, Fmt.CollectionAt file addr xs → (∀ y ∈ xs, y.refs = 0) → x ∈ xs →
    heap addr x.index = .ok (if x.data = [] then none else some x.data)

/-! ### Values -/

/-- The object has data in one piece of the file, which are `val` as an array with `rank`
dimensions. -/
def ValueIn (file : Bytes) (heap : HeapFn) (rank : Nat) (val : TVal) (i : Info) : Prop :=
  ∃ dt dims addr data, i.isGroup = false ∧ i.dt = some dt ∧ i.dims = some dims ∧ dims.length = rank ∧
    i.blocks = [.at addr data.length] ∧ i.layout = [] ∧ i.chunk = none ∧ i.filters = [] ∧ i.fillValue = none ∧
    At file addr data ∧ Shown heap dt dims data val

/-- The object has an attribute with this name and value. -/
def AttrIn (heap : HeapFn) (i : Info) (name : Bytes) (val : TVal) : Prop :=
  ∃ a ∈ i.attrs, a.name = name ∧ AttrShown heap a val

/-- The object has the attributes `as`, each once, and besides at most those in `more`. -/
structure AttrsIn (heap : HeapFn) (i : Info) (as : HAttrs) (more : List Bytes) : Prop where
  each : ∀ p ∈ as.getD [], AttrIn heap i p.1 (GoVal.lift p.2)
  only : ∀ a ∈ i.attrs, a.name ∈ (as.getD []).map (·.1) ∨ a.name ∈ more
  once : (i.attrs.map (·.name)).Nodup

/-! ### Dimensions -/

/-- The length of a nested slice along one axis, going down through the first elements, for values of
user-defined types. -/
def extentT : Nat → TVal → Nat
  | n, .enum v _ _ => extentT n v
  | 0, .slice _ xs => xs.length
  | n + 1, .slice _ (x :: _) => extentT n x
  | _, _ => 0

/-- The length of a nested slice along one axis, going down through the first elements. -/
def extent : Nat → GoVal → Nat
  | n, .user v => extentT n v
  | 0, .slice _ xs => xs.length
  | n + 1, .slice _ (x :: _) => extent n x
  | _, _ => 0

/-- The variable is in the group or in a group below. -/
inductive VarWithin (v : HVar) : HGroup → Prop
  | here (g : HGroup) : v ∈ g.info.vars → VarWithin v g
  | deeper (g s : HGroup) : s ∈ g.subs → VarWithin v s → VarWithin v g

/-- Some variable has this length along this dimension. -/
def LenOf (root : HGroup) (d : Bytes) (len : Nat) : Prop :=
  ∃ v, VarWithin v root ∧ ∃ axis : Nat, v.dims[axis]? = some d ∧ extent axis v.val = len

/-- The object is a dimension scale with this `NAME` (HDF5 Dimension Scale specification) and this
number (netCDF-4). -/
structure ScaleIn (heap : HeapFn) (i : Info) (name : Bytes) (id : Nat) : Prop where
  isScale : AttrIn heap i (ascii "CLASS") (.str (ascii "DIMENSION_SCALE"))
  name : AttrIn heap i (ascii "NAME") (.str name)
  number : AttrIn heap i (ascii "_Netcdf4Dimid") (.num .i32 id)

/-- The object refers to the dimension scales `dims`, which are members of the root group `top`. -/
def ListIn (heap : HeapFn) (ids : Bytes → Nat) (top : Obj) (i : Info) (dims : List Bytes) : Prop :=
  ∃ scales : List Obj, scales.map (fun k => k.info.name) = dims ∧
    (∀ k ∈ scales, k ∈ top.kids ∧ ∃ n, ScaleIn heap k.info n (ids k.info.name)) ∧
    AttrIn heap i (ascii "DIMENSION_LIST")
      (.slice (.slice (.num .u64)) (scales.map fun k => .slice (.num .u64) [.num .u64 k.info.addr]))

/-- How the dimensions of a variable are stored: a variable of the root group with the name of a
dimension is the scale of this dimension, any other variable refers to scales. -/
def DimsIn (heap : HeapFn) (ids : Bytes → Nat) (root : HGroup) (top : Obj) (path : List Bytes) (v : HVar) (i : Info) :
    Prop :=
  if path = [] ∧ v.name ∈ dimsOf root then ScaleIn heap i v.name (ids v.name)
  else v.dims ≠ [] → [] ∉ v.dims → ListIn heap ids top i v.dims

/-- The object is the scale of a dimension that is no variable: its length is that of the
dimension. -/
def BareScaleIn (heap : HeapFn) (ids : Bytes → Nat) (root : HGroup) (o : Obj) : Prop :=
  ∃ len name, LenOf root o.info.name len ∧ o.info.dims = some [len] ∧
    ascii "This is a netCDF dimension but not a netCDF variable" <+: name ∧
    ScaleIn heap o.info name (ids o.info.name)

/-! ### Variables and groups -/

/-- The object holds the variable. -/
structure VarHeld (file : Bytes) (heap : HeapFn) (ids : Bytes → Nat) (root : HGroup) (top : Obj) (path : List Bytes)
    (v : HVar) (o : Obj) : Prop where
  name : o.info.name = v.name
  leaf : o.kids = []
  value : ValueIn file heap v.dims.length (GoVal.lift v.val) o.info
  attrs : AttrsIn heap o.info v.attrs (["CLASS", "NAME", "_Netcdf4Dimid", "DIMENSION_LIST"].map ascii)
  dims : DimsIn heap ids root top path v o.info

/-- The object holds the group: its members are the variables, the subgroups and, in the root group,
scales for the dimensions that are no variables. -/
structure GroupHeld (file : Bytes) (heap : HeapFn) (ids : Bytes → Nat) (root : HGroup) (top : Obj) (path : List Bytes)
    (g : HGroup) (o : Obj) : Prop where
  group : o.info.isGroup = true
  attrs : AttrsIn heap o.info g.info.attrs [ascii "_NCProperties"]
  vars : ∀ v ∈ g.info.vars, ∃ k ∈ o.kids, VarHeld file heap ids root top path v k
  subs : ∀ s ∈ g.subs, ∃ k ∈ o.kids, k.info.name = s.name ∧ k.info.isGroup = true
  only : ∀ k ∈ o.kids, k.info.name ∈ g.info.vars.map (·.name) ∨ k.info.name ∈ g.subs.map (·.name) ∨
    (path = [] ∧ BareScaleIn heap ids root k)
  once : (o.kids.map fun k => k.info.name).Nodup

end Verif.H5
