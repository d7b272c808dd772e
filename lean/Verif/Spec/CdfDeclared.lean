import Verif.Spec.Stored
import Verif.Model.CdfReader
/-!
Specification for values read from any CDF file: they have the shape and the type that the file declares.
-/
namespace Verif.Cdf

/-- The length of a dimension of the file; the record dimension is as long as there are records. -/
def Hdr.lengthOf (h : Hdr) (id : Nat) : Nat :=
  match h.dims[id]? with
  | none => 0
  | some d => if d.length = 0 then h.numRecs else d.length

/-- `v` is an array of the type with the lengths. Characters are put together to strings along the last
dimension; a single one is a string. -/
def DeclaredC (ty : NcType) (dims : List Nat) (v : GoVal) : Prop :=
  match ty.kind with
  | some k => NumArray k dims v
  | none => (dims = [] → ∃ s, v = .str s ∧ s ≠ []) ∧ ∀ ds L, dims = ds ++ [L] → Rect .str (StrLen L) ds v

end Verif.Cdf
