import Verif.Spec.H5Slices
/-!
Specification of the dimensions of HDF5 files that were written.
-/
namespace Verif.H5

/-- The file has this variable, in some group. -/
def HGroup.Has (root : HGroup) (v : HVar) : Prop :=
  ∃ path g, root.at? path = some g ∧ v ∈ g.info.vars

/-- The length `n` of a variable along a dimension that it has under the name `d`. -/
def HVar.Along (v : HVar) (d : Bytes) (n : Nat) : Prop :=
  ∃ i : Nat, v.dims[i]? = some d ∧ v.extents[i]? = some n

/-- All variables agree on the length `n` of dimension `d`, and a variable of the root group that has
the name of the dimension has it as its first. -/
structure DimAgreed (root : HGroup) (d : Bytes) (n : Nat) : Prop where
  all : ∀ v m, root.Has v → v.Along d m → m = n
  coord : ∀ v ∈ root.info.vars, v.name = d → v.dims.head? = some d

/-- What the root group says about the dimensions of the file. -/
structure DimReads (root : HGroup) (G : Group) : Prop where
  once : G.listDimensions.Nodup
  list : ∀ d, d ∈ G.listDimensions ↔ d ≠ [] ∧ ∃ v, root.Has v ∧ d ∈ v.dims
  length : ∀ d n, d ∈ G.listDimensions → DimAgreed root d n → G.getDimension d = .ok (some n)
  other : ∀ d, d ∉ G.listDimensions → G.getDimension d = .ok none

end Verif.H5
