import Verif.Spec.H5File
/-!
Specification for reading HDF5 files that were written: what the calls should return.
-/
namespace Verif.H5

/-- A slice of one element is read as the element. -/
def oneOf : GoVal → GoVal
  | .slice _ [x] => x
  | v => v

/-- The attributes that an attribute map has: its keys in their order, with their values. -/
def Given : Attrs → List (Bytes × GoVal) → Prop
  | none, as => as = []
  | some om, as => as.map (·.1) = om.visibleKeys ∧ ∀ p ∈ as, om.get p.1 = some p.2

/-- Attributes as they are read. -/
def shown (as : HAttrs) : List (Bytes × GoVal) := (as.getD []).map fun p => (p.1, oneOf p.2)

/-- The dimension names of a variable in the group at `path` as they are read. A variable of the root
group with the name of a dimension has that dimension only. -/
def dimsRead (root : HGroup) (path : List Bytes) (v : HVar) : List Bytes :=
  if path = [] ∧ v.name ∈ dimsOf root then [v.name]
  else if [] ∈ v.dims then []
  else v.dims

/-- A history of `GetVariable` calls: path of the group and name of the variable. -/
abbrev ReadCalls := List (Bytes × Bytes)

/-- One `GetVariable` call on a group that `GetGroup` returned. -/
def readOne (s : Src) (o : Obj) (t : VTab) (r : Bytes × Bytes) : VTab :=
  match (rootGroup o).getGroup r.1 with
  | .ok g => (g.getVariable s t r.2).1
  | _ => t

/-- What the calls leave behind in the open file. -/
def readAll (s : Src) (o : Obj) (rs : ReadCalls) : VTab := rs.foldl (readOne s o) []

/-- What can be read from a group of the file: the group `g` was written at `path`; `G` is what
`GetGroup` returned. -/
structure GroupReads (s : Src) (root : HGroup) (path : List Bytes) (g : HGroup) (G : Group) (t : VTab) :
    Prop where
  vars : G.listVariables.Perm (g.info.vars.map (·.name))
  subs : ∃ l, G.listSubgroups = .ok l ∧ l.Perm (g.subs.map (·.name))
  attrs : G.attributes s = .ok (shown g.info.attrs)
  var : ∀ v ∈ g.info.vars,
    (G.getVariable s t v.name).2 = .ok ⟨v.val, dimsRead root path v, shown v.attrs⟩
  other : ∀ n, n ∉ g.info.vars.map (·.name) → (G.getVariable s t n).2 = .err .notFound

end Verif.H5
