import Verif.Model.H5Typed
/-!
The values that are written among the values that are read.
-/
namespace Verif.H5

/-- The type as one of the types that are read. -/
def GoTy.lift : GoTy → TTy
  | .num k => .num k
  | .str => .str
  | .slice t => .slice (GoTy.lift t)
  | .other _ => .nil

/-- The value as one of the values that are read. -/
def GoVal.lift : GoVal → TVal
  | .num k n => .num k n
  | .str s => .str s
  | .slice t xs => .slice (GoTy.lift t) (xs.map fun x => GoVal.lift x)
  | .other _ => .nil
  | .user v => v

end Verif.H5
