import Verif.Spec.Shape
/-!
Names of types: Go's own notation, and the notation of CDL. Written without the model of the
printers.
-/
namespace Verif

/-- How Go writes the element types of netCDF data. -/
def goBase : GoTy → String
  | .num .i8 => "int8" | .num .i16 => "int16" | .num .i32 => "int32" | .num .i64 => "int64"
  | .num .u8 => "uint8" | .num .u16 => "uint16" | .num .u32 => "uint32" | .num .u64 => "uint64"
  | .num .f32 => "float32" | .num .f64 => "float64" | .str => "string"
  | _ => ""

/-- How CDL writes the element types of netCDF data. -/
def cdlBase : GoTy → String
  | .num .i8 => "byte" | .num .i16 => "short" | .num .i32 => "int" | .num .i64 => "int64"
  | .num .u8 => "ubyte" | .num .u16 => "ushort" | .num .u32 => "uint" | .num .u64 => "uint64"
  | .num .f32 => "float" | .num .f64 => "double" | .str => "string"
  | _ => ""

/-- A slice, of any depth, of numbers or strings. -/
def IsData : GoTy → Prop
  | .slice t => IsData t
  | .num _ => True
  | .str => True
  | .other _ => False

/-- The Go notation of a type: `[][]int32`. -/
def goName : GoTy → Bytes
  | .slice t => ascii "[]" ++ goName t
  | t => ascii (goBase t)

mutual
/-- The elements of every slice have the type of its elements, as Go's compiler sees to. -/
def WellTyped : GoVal → Prop
  | .slice t xs => AllTyped t xs
  | _ => True
/-- Every value of the list is well typed and of type `t`. -/
def AllTyped (t : GoTy) : List GoVal → Prop
  | [] => True
  | x :: xs => x.ty = t ∧ WellTyped x ∧ AllTyped t xs
end

/-- The lengths as CDL writes them. A length is `*` when it is zero, and after a zero there is
nothing to measure. -/
def cdlDims : List Nat → List Bytes
  | [] => []
  | 0 :: ds => ascii "*" :: ds.map fun _ => ascii "*"
  | d :: ds => decDigits d :: cdlDims ds

/-- Words with commas between them. -/
def commaSep : List Bytes → Bytes
  | [] => []
  | [x] => x
  | x :: xs => x ++ ascii "," ++ commaSep xs

/-- `int`, `int(3)`, `int(2,3)`, ... -/
def cdlName (base : GoTy) (dims : List Nat) : Bytes :=
  match dims with
  | [] => ascii (cdlBase base)
  | ds => ascii (cdlBase base) ++ ascii "(" ++ commaSep (cdlDims ds) ++ ascii ")"

end Verif
