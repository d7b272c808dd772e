import Verif.Spec.H5DType
import Verif.Spec.H5Type
/-!
The stored types of written values as datatypes of the format.
-/
namespace Verif.H5

open Fmt in
/-- Name and offset of the members of a compound. -/
def slots : Nat → List Bytes → List WTy → List (Bytes × Nat × List Nat)
  | off, n :: ns, t :: ts => (n, off, []) :: slots (off + t.fieldSize) ns ts
  | _, _, _ => []

mutual
/-- The datatype in the format that the writer uses for a type. -/
def WTy.form : WTy → Fmt.DType
  | .num k => if k.isFloat then .float k.size false else .fixed 1 k.size k.signed false
  | .fixStr n => .str n 0 0
  | .vlenStr => .vlenStr 1 16 0 0 (.str 1 0 0)
  | .vlenSeq t => .vlenSeq 1 16 0 t.form
  | .opaque n => .opaque 1 n []
  | .compound names ts => .compound 3 (fieldSizes ts) (slots 0 names ts) (forms ts)
  | .enum k names vals => .enum 3 1 k.size k.signed false names vals
  | .ref => .ref 8 0
/-- The types of the members. -/
def forms : List WTy → List Fmt.DType
  | [] => []
  | t :: ts => t.form :: forms ts
end

end Verif.H5
