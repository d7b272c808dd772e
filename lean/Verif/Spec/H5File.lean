import Verif.Spec.H5Value
import Verif.Spec.H5Session
import Verif.Spec.H5UserTypes
import Verif.Spec.H5Form
import Verif.Model.H5Api
/-!
Specification for whole HDF5 files: what may be given to the writer so that the file holds it.
-/
namespace Verif.H5

/-! ### Values -/

/-- The shape of a variable that can be stored: at most 255 dimensions, and zero only as the last
length. -/
structure ShapeOK (dims : List Nat) (elemSize : Nat) : Prop where
  rank : dims.length ≤ 255
  fits : ∀ d ∈ dims, d < 2 ^ 63
  pos : ∀ d ∈ dims.dropLast, d ≠ 0
  size : prod dims * elemSize < 2 ^ 63

/-- The values of variables with `n` dimensions that need nothing but their own bytes: numbers and
arrays of them, and strings. -/
inductive VarPlain : Nat → GoVal → Prop
  | num (k : Kind) (dims : List Nat) (v : GoVal) : NumArray k dims v → ShapeOK dims k.size →
      VarPlain dims.length v
  | str (s : Bytes) : (0 : UInt8) ∉ s → s.length + 1 < 2 ^ 32 → VarPlain 0 (.str s)

/-- The values of variables with `n` dimensions that are read back as they are: those above, arrays
of strings, and arrays of number sequences of any lengths (not with a length zero). -/
inductive VarOK : Nat → GoVal → Prop
  | plain (n : Nat) (v : GoVal) : VarPlain n v → VarOK n v
  | strs (dims : List Nat) (v : GoVal) : Rect .str CStr dims v → dims ≠ [] → ShapeOK dims 16 →
      VarOK dims.length v
  | rows (k : Kind) (dims : List Nat) (v : GoVal) : Rect (.slice (.num k)) (Row k) dims v →
      ShapeOK dims 16 → (∀ d ∈ dims, d ≠ 0) → VarOK dims.length v

/-- The elements of a variable with `n` dimensions are sequences of numbers. -/
def Sequences (n : Nat) (v : GoVal) : Prop :=
  ∃ k dims, dims.length = n ∧ Rect (.slice (.num k)) (Row k) dims v

/-- The attribute values that need nothing but their own bytes. -/
inductive AttrPlain : GoVal → Prop
  | num (k : Kind) (dims : List Nat) (v : GoVal) : NumArray k dims v → FitDims dims →
      (∀ d ∈ dims.dropLast, d ≠ 0) → (k.isFloat = true → ∀ d ∈ dims, d ≠ 0) →
      prod dims * k.size < 2 ^ 63 → AttrPlain v
  | str (s : Bytes) : (0 : UInt8) ∉ s → s.length + 1 < 2 ^ 32 → AttrPlain (.str s)

mutual
/-- The strings in a value. -/
def strsIn : GoVal → List Bytes
  | .str s => [s]
  | .slice _ xs => strsInL xs
  | .user v => strsT v
  | _ => []
/-- The elements. -/
def strsInL : List GoVal → List Bytes
  | [] => []
  | x :: xs => strsIn x ++ strsInL xs
end

mutual
/-- The number of slices in a value. -/
def slicesIn : GoVal → Nat
  | .slice _ xs => 1 + slicesInL xs
  | .user v => slicesT v
  | _ => 0
/-- The elements. -/
def slicesInL : List GoVal → Nat
  | [] => 0
  | x :: xs => slicesIn x + slicesInL xs
end

mutual
/-- The number of slices that are elements of an array with `n` dimensions. -/
def seqsIn : GoVal → Nat → Nat
  | .slice _ xs, n => if n = 0 then 1 else seqsInL xs (n - 1)
  | .user v, _ => slicesT v
  | _, _ => 0
/-- The elements. -/
def seqsInL : List GoVal → Nat → Nat
  | [], _ => 0
  | x :: xs, n => seqsIn x n + seqsInL xs n
end

/-- The strings of slices of strings and of compounds; a single string is stored in place. -/
def heapStrs : GoVal → List Bytes
  | .slice _ xs => strsInL xs
  | .user v => strsT v
  | _ => []

/-- How many entries of the heap an attribute value takes at most. -/
def attrNeed (v : GoVal) : Nat := (heapStrs v).length + slicesIn v

/-- How many entries of the heap the value of a variable with `n` dimensions takes at most. -/
def varNeed (v : GoVal) (n : Nat) : Nat := (heapStrs v).length + seqsIn v n

/-! ### User-defined types -/

/-- The attribute values that are stored: those above and those of user-defined types, except opaque
values (see C60). -/
inductive AttrAny : GoVal → Prop
  | common (v : GoVal) : AttrOK v → AttrAny v
  | user (w : WTy) (dims : List Nat) (v : TVal) : AttrValue w dims v → w.Readable true → (∀ n, w ≠ .opaque n) →
      FitDims dims → prod dims * w.fieldSize + 8 * dims.length + w.form.bytes.length ≤ 32000 → AttrAny (.user v)

/-- The values of variables that are stored: those above and those of user-defined types. -/
inductive VarAny : Nat → GoVal → Prop
  | common (n : Nat) (v : GoVal) : VarOK n v → VarAny n v
  | user (w : WTy) (dims : List Nat) (v : TVal) : VarValue w dims v → w.Readable true → 0 < w.fieldSize →
      ShapeOK dims w.fieldSize → w.form.bytes.length ≤ 60000 → VarAny dims.length (.user v)

/-! ### Attributes, variables and groups -/

/-- The names of attributes that the format uses itself. -/
def reservedKeys : List Bytes := [kClass, kName, kDimid, kDimList, kRefList, kCoordinates, ncpKey]

/-- No string in the heap looks like the name under which the writer keeps a reference to a
dimension. -/
def NoRefStrs (v : GoVal) : Prop := ∀ s ∈ heapStrs v, ¬ ascii "__dimref:" <+: s

/-- An attribute that is stored. -/
structure AttrAllowed (p : Bytes × GoVal) : Prop where
  key : p.1 ∉ reservedKeys
  noNul : (0 : UInt8) ∉ p.1
  room : p.1.length + valueRoom p.2 ≤ 65000
  val : AttrAny p.2
  refs : NoRefStrs p.2

/-- A list of attributes. -/
structure AttrsAllowed (as : HAttrs) : Prop where
  keys : ((as.getD []).map (·.1)).Nodup
  each : ∀ p ∈ as.getD [], AttrAllowed p
  few : (as.getD []).length ≤ 50000

/-- A variable that is stored. -/
structure VarAllowed (v : HVar) : Prop where
  val : VarAny v.dims.length v.val
  refs : NoRefStrs v.val
  attrs : AttrsAllowed v.attrs

/-- A name of a variable or a group that can be stored and found. -/
structure NameOK (n : Bytes) : Prop where
  nonempty : n ≠ []
  short : n.length ≤ 255
  noSlash : slash ∉ n

/-- A group with everything in it: variables and subgroups have different names. -/
inductive GroupAllowed : HGroup → Prop
  | mk (i : GInfo) (subs : List HGroup) :
      AttrsAllowed i.attrs → (∀ v ∈ i.vars, VarAllowed v) →
      (∀ n ∈ i.vars.map (·.name) ++ subs.map (·.name), NameOK n) →
      (∀ v ∈ i.vars, v.name ∉ subs.map (·.name)) →
      (i.attrs.getD []).length + (i.vars.length + subs.length) ≤ 50000 →
      (∀ s ∈ subs, GroupAllowed s) → GroupAllowed (.mk i subs)

mutual
/-- The names of the dimensions of all variables. -/
def dimsOf : HGroup → List Bytes
  | .mk i subs => i.vars.flatMap (·.dims) ++ dimsOfL subs
/-- Of several groups. -/
def dimsOfL : List HGroup → List Bytes
  | [] => []
  | g :: gs => dimsOf g ++ dimsOfL gs
end

/-- How many entries of the heap a list of attributes takes at most. -/
def attrsNeed (as : HAttrs) : Nat := ((as.getD []).map fun p => attrNeed p.2).sum

/-- How many entries of the heap a variable takes at most, with the references to its dimensions. A
dimension scale has none of these; the variables that a user adds are none. -/
def HVar.need (v : HVar) : Nat :=
  varNeed v.val v.dims.length + attrsNeed v.attrs + (if v.isScale then 0 else v.dims.length)

mutual
/-- How many entries of the heap a group takes at most. -/
def HGroup.need : HGroup → Nat
  | .mk i subs => (i.vars.map HVar.need).sum + attrsNeed i.attrs + HGroup.needL subs
/-- Several groups. -/
def HGroup.needL : List HGroup → Nat
  | [] => 0
  | g :: gs => g.need + HGroup.needL gs
end

/-- A variable of the root group with the name of a dimension. -/
structure CoordAllowed (v : HVar) : Prop where
  val : VarPlain v.dims.length v.val
  attrs : ∀ p ∈ v.attrs.getD [], AttrPlain p.2
  name : ¬ dimMarker <+: v.name
  nul : (0 : UInt8) ∉ v.name

/-- A file with everything in it. -/
structure FileStored (root : HGroup) : Prop where
  group : GroupAllowed root
  attrs : root.info.attrs ≠ none
  dims : ∀ d ∈ dimsOf root, d.length ≤ 255 ∧ d ∉ root.subs.map (·.name)
  coord : ∀ v ∈ root.info.vars, v.name ∈ dimsOf root → CoordAllowed v
  few : (root.info.attrs.getD []).length + root.info.vars.length + (dimsOf root).length +
    root.subs.length ≤ 50000
  need : root.need < 65536

/-- No value has a user-defined type. -/
inductive NoUser : HGroup → Prop
  | mk (i : GInfo) (subs : List HGroup) : (∀ p ∈ i.attrs.getD [], Common p.2) →
      (∀ v ∈ i.vars, Common v.val ∧ ∀ p ∈ v.attrs.getD [], Common p.2) → (∀ s ∈ subs, NoUser s) →
      NoUser (.mk i subs)

/-- A file that is read back as it is, with the part of the reader that is about numbers and strings. -/
structure FileAllowed (root : HGroup) : Prop extends FileStored root where
  noUser : NoUser root

/-- Each pass over the maps of the writer takes everything once, in some order. -/
def OrderOK (ord : Order) : Prop := ∀ n vs, (ord n vs).Perm vs

end Verif.H5
