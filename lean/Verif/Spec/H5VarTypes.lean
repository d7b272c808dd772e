import Verif.Spec.H5File
import Verif.Spec.H5Names
/-!
Specification for the types of variables that are given to the writer.
-/
namespace Verif.H5

mutual
/-- The type of netCDF-4 that a stored type is: how strings are stored does not matter, and the numbers
of an enumeration are read with their sign. -/
def WTy.ty : WTy → Ty
  | .num k => .num k
  | .fixStr _ | .vlenStr => .text
  | .vlenSeq t => .seq t.ty
  | .opaque n => .opaque n
  | .compound names ts => .compound names (wtys ts)
  | .enum k names vals => .enum k names (vals.map (ofBits k.size k.signed))
  | .ref => .num .u64
/-- The types of the members. -/
def wtys : List WTy → List Ty
  | [] => []
  | t :: ts => t.ty :: wtys ts
end

/-- `HasTy n v t`: `v` is an array with `n` dimensions of elements of type `t`: numbers of a kind,
strings, sequences of numbers, or values of a user-defined type. -/
inductive HasTy : Nat → GoVal → Ty → Prop
  | num (k : Kind) (dims : List Nat) (v : GoVal) : NumArray k dims v → ShapeOK dims k.size →
      HasTy dims.length v (.num k)
  | text (s : Bytes) : HasTy 0 (.str s) .text
  | texts (dims : List Nat) (v : GoVal) : Rect .str CStr dims v → dims ≠ [] → ShapeOK dims 16 →
      HasTy dims.length v .text
  | seq (k : Kind) (dims : List Nat) (v : GoVal) : Rect (.slice (.num k)) (Row k) dims v → ShapeOK dims 16 →
      (∀ d ∈ dims, d ≠ 0) → HasTy dims.length v (.seq (.num k))
  | user (w : WTy) (dims : List Nat) (v : TVal) : VarValue w dims v → HasTy dims.length (.user v) w.ty

end Verif.H5
