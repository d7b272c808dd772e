import Verif.Spec.H5Rows
import Verif.Spec.Shape
/-!
Specification for boxes of variables of any HDF5 file.
-/
namespace Verif.H5

/-- The element of an array at an index. -/
def elemAt : List Nat → TVal → Option TVal
  | [], v => some v
  | i :: is, .slice _ xs =>
    match xs[i]? with
    | some x => elemAt is x
    | none => none
  | _ :: _, _ => none

/-- The index lies inside the box, counted from the corner of the box. -/
def InsideBox : List (Nat × Nat) → List Nat → Prop
  | [], [] => True
  | (b, e) :: rs, i :: is => i < e - b ∧ InsideBox rs is
  | _, _ => False

/-- The same index, counted from the corner of the array. -/
def moved (rs : List (Nat × Nat)) (idx : List Nat) : List Nat := List.zipWith (fun r i => r.1 + i) rs idx

/-- An enumeration, or arrays of it. -/
def IsEnum : DT → Prop
  | .enum _ _ _ _ => True
  | .array _ _ e => IsEnum e
  | _ => False

end Verif.H5
