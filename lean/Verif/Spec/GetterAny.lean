import Verif.Model.H5Api
/-!
Specification for C58: variables in one piece, and calls on their getter.
-/
namespace Verif.H5

/-- The values of this type are read one after the other from the bytes of the variable alone. -/
def OnePiece (dt : DT) : Prop := numKind dt ≠ none ∨ (∃ n, dt = .str n ∧ n ≠ 1) ∨ ∃ n, dt = .ref n

/-- A variable that is not in chunks, without filters, of a type whose values are in its own bytes. -/
structure WholeVar (i : Info) (dt : DT) : Prop where
  type : i.dt = some dt
  values : OnePiece dt
  layout : i.layout = []
  filters : i.filters = []
  chunk : i.chunk = none
  fill : i.fillValue ≠ some (.value [])
  fillOld : i.fillValueOld ≠ some []
  small : ∀ r, Block.raw r ∈ i.blocks → r.length < 2 ^ 63

/-- Calls of `GetSlice` on one getter after the file has been opened. -/
def sliced (s : Src) (h : HGetter) (calls : List (Int × Int)) : VTab :=
  calls.foldl (fun t c => (h.getSlice s t c.1 c.2).1) []

end Verif.H5
