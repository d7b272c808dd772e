import Verif.Spec.H5Read
import Verif.Spec.H5Lift
import Verif.Spec.H5Names
import Verif.Spec.H5Typed
import Verif.Spec.H5Written
/-!
Specification for reading HDF5 files that were written, with values of user-defined types: what the
calls should return.
-/
namespace Verif.H5

/-- A compound with one member; as the value of an attribute it is not shown as it is (C55). -/
def Lone (v : GoVal) : Prop := ∃ n x, v = .user (.compound [n] [x])

/-- Attributes as they are read. -/
def shownT (as : HAttrs) : List (Bytes × TVal) := (as.getD []).map fun p => (p.1, oneOut (GoVal.lift p.2))

/-- One `GetVariable` call on a group that `GetGroup` returned. -/
def readOneT (s : Src) (o : Obj) (ord : List Nat → List NamedType → List NamedType) (t : TTab) (r : Bytes × Bytes) : TTab :=
  match (rootGroup o).getGroup r.1 with
  | .ok g => (g.getVariableT (g.cast ord) s t r.2).1
  | _ => t

/-- What the calls leave behind in the open file. -/
def readAllT (s : Src) (o : Obj) (ord : List Nat → List NamedType → List NamedType) (rs : ReadCalls) : TTab :=
  rs.foldl (readOneT s o ord) []

/-- What can be read from a group of the file: the group `g` was written at `path`; `G` is what
`GetGroup` returned. -/
structure GroupReadsT (s : Src) (ord : List Nat → List NamedType → List NamedType) (root : HGroup) (path : List Bytes) (g : HGroup)
    (G : Group) (t : TTab) : Prop where
  vars : G.listVariables.Perm (g.info.vars.map (·.name))
  subs : ∃ l, G.listSubgroups = .ok l ∧ l.Perm (g.subs.map (·.name))
  types : G.listTypes = []
  attrs : (∀ p ∈ g.info.attrs.getD [], ¬ Lone p.2) → G.attributesT (G.cast ord) s = .ok (shownT g.info.attrs)
  var : ∀ v ∈ g.info.vars, (∀ p ∈ v.attrs.getD [], ¬ Lone p.2) →
    (G.getVariableT (G.cast ord) s t v.name).2 = .ok ⟨GoVal.lift v.val, dimsRead root path v, shownT v.attrs⟩
  /-- `GetVarGetter` and then slices, the last one being from `b` to `e` -/
  rows : ∀ v ∈ g.info.vars, v.dims ≠ [] → ∃ k, G.findVariable v.name = some k ∧
    ∀ calls : List (Nat × Nat), (∀ c ∈ calls, c.1 < c.2 ∧ c.2 ≤ extent 0 v.val) → ∀ b e, b < e → e ≤ extent 0 v.val →
      (k.getSliceT (G.cast ord) s (calls.foldl (fun t c => (k.getSliceT (G.cast ord) s t c.1 c.2).1) t) b e).2 =
        .ok (sliceV b e (GoVal.lift v.val))
  other : ∀ n, n ∉ g.info.vars.map (·.name) → (G.getVariableT (G.cast ord) s t n).2 = .err .notFound

end Verif.H5
