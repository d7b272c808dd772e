import Verif.Model.GoVal
/-!
The type printers of netcdf/util/orderedmap.go: `GetGoType` and `GetType` of an attribute map
without callbacks. The callbacks are set by the HDF5 reader only.

Arrays and structs (orderedmap.go:111-122, 135-159, 201-212, 225-246) are not values of the model.
-/
namespace Verif

/-- `reflect.Kind.String`. For a value of a type the packages do not support the name is that of
some other kind, here a parameter. -/
def Kind.name : Kind → Bytes
  | .i8 => ascii "int8" | .i16 => ascii "int16" | .i32 => ascii "int32" | .i64 => ascii "int64"
  | .u8 => ascii "uint8" | .u16 => ascii "uint16" | .u32 => ascii "uint32"
  | .u64 => ascii "uint64" | .f32 => ascii "float32" | .f64 => ascii "float64"

/-- netcdf/util/orderedmap.go:107-163 `pGoType` of `reflect.Zero(t)`, for the elements of an empty
slice (lines 126-127). -/
def pGoTypeZero (other : Bool → Bytes) : GoTy → Bytes
  | .num k => k.name
  | .str => ascii "string"
  | .slice t => ascii "[]" ++ pGoTypeZero other t
  | .other b => other b

/-- netcdf/util/orderedmap.go:107-163 `pGoType`; the second result is always true for the values of
the model. -/
def pGoType (other : Bool → Bytes) : GoVal → Bytes
  | .num k _ => k.name
  | .str _ => ascii "string"
  | .slice t [] => ascii "[]" ++ pGoTypeZero other t
  | .slice _ (x :: _) => ascii "[]" ++ pGoType other x
  | .other b => other b
  | .user _ => other false

/-- netcdf/util/orderedmap.go:167-176 `GetGoType` without a callback. -/
def OMap.getGoType (other : Bool → Bytes) (om : OMap GoVal) (key : Bytes) : Option Bytes :=
  (om.get key).map (pGoType other)

/-- `strings.LastIndex(s, "(")` as the text before and the text after that parenthesis. -/
def lastParen : Bytes → Option (Bytes × Bytes)
  | [] => none
  | c :: s =>
    match lastParen s with
    | some (a, b) => some (c :: a, b)
    | none => if c = 40 then some ([], s) else none

/-- netcdf/util/orderedmap.go:181-194 `putDim` for a slice. -/
def putDim (inner : Bytes) (dim : Nat) : Bytes :=
  let sDim := if dim = 0 then ascii "*" else decDigits dim
  match lastParen inner with
  | none => inner ++ ascii "(" ++ sDim ++ ascii ")"
  | some (_, []) => inner ++ ascii "(" ++ sDim ++ ascii ")"
  | some (a, b) => a ++ ascii "(" ++ sDim ++ ascii "," ++ b

/-- netcdf/util/orderedmap.go:247-265, the replacements; a kind without one keeps its name. -/
def Kind.cdl : Kind → Bytes
  | .f32 => ascii "float" | .f64 => ascii "double" | .i8 => ascii "byte" | .i16 => ascii "short"
  | .i32 => ascii "int" | .u8 => ascii "ubyte" | .u16 => ascii "ushort" | .u32 => ascii "uint"
  | k => k.name

/-- netcdf/util/orderedmap.go:196-267 `pType` of `reflect.Zero(t)`. -/
def pTypeZero (other : Bool → Bytes) : GoTy → Bytes
  | .num k => k.cdl
  | .str => ascii "string"
  | .slice t => putDim (pTypeZero other t) 0
  | .other b => other b

/-- netcdf/util/orderedmap.go:196-267 `pType`. -/
def pType (other : Bool → Bytes) : GoVal → Bytes
  | .num k _ => k.cdl
  | .str _ => ascii "string"
  | .slice t [] => putDim (pTypeZero other t) 0
  | .slice _ (x :: xs) => putDim (pType other x) (xs.length + 1)
  | .other b => other b
  | .user _ => other false

/-- `strings.ReplaceAll(s, ")(", ",")`. -/
def replaceParens : Bytes → Bytes
  | 41 :: 40 :: s => 44 :: replaceParens s
  | c :: s => c :: replaceParens s
  | [] => []

/-- netcdf/util/orderedmap.go:271-286 `GetType` without a callback. -/
def OMap.getType (other : Bool → Bytes) (om : OMap GoVal) (key : Bytes) : Option Bytes :=
  (om.get key).map fun v => replaceParens (pType other v)

end Verif
