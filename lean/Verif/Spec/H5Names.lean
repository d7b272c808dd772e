import Verif.Model.H5Names
/-!
The types of the netCDF-4 data model and how they are written, in CDL and in Go. Only decimal digits
and the names of the kinds of numbers are shared with the model.
-/
namespace Verif.H5

/-- A type of netCDF-4, without what only concerns its storage (byte order, offsets, lengths of
strings). -/
inductive Ty
  | num (k : Kind)
  | text
  | opaque (n : Nat)
  | compound (names : List Bytes) (types : List Ty)
  | enum (k : Kind) (names : List Bytes) (vals : List Int)
  | seq (t : Ty)
  | array (dims : List Nat) (t : Ty)
deriving Repr

mutual
/-- Equality of types is decidable. -/
def Ty.decEq : (a b : Ty) → Decidable (a = b)
  | .num k, .num k' => decidable_of_iff (k = k') (by simp)
  | .text, .text => isTrue rfl
  | .opaque n, .opaque n' => decidable_of_iff (n = n') (by simp)
  | .compound n ts, .compound n' ts' =>
    have := Ty.decEqList ts ts'
    decidable_of_iff (n = n' ∧ ts = ts') (by simp)
  | .enum k n v, .enum k' n' v' => decidable_of_iff (k = k' ∧ n = n' ∧ v = v') (by simp)
  | .seq t, .seq t' =>
    have := Ty.decEq t t'
    decidable_of_iff (t = t') (by simp)
  | .array d t, .array d' t' =>
    have := Ty.decEq t t'
    decidable_of_iff (d = d' ∧ t = t') (by simp)
  | .num .., .text => isFalse (by intro e; cases e)
  | .num .., .opaque .. => isFalse (by intro e; cases e)
  | .num .., .compound .. => isFalse (by intro e; cases e)
  | .num .., .enum .. => isFalse (by intro e; cases e)
  | .num .., .seq .. => isFalse (by intro e; cases e)
  | .num .., .array .. => isFalse (by intro e; cases e)
  | .text, .num .. => isFalse (by intro e; cases e)
  | .text, .opaque .. => isFalse (by intro e; cases e)
  | .text, .compound .. => isFalse (by intro e; cases e)
  | .text, .enum .. => isFalse (by intro e; cases e)
  | .text, .seq .. => isFalse (by intro e; cases e)
  | .text, .array .. => isFalse (by intro e; cases e)
  | .opaque .., .num .. => isFalse (by intro e; cases e)
  | .opaque .., .text => isFalse (by intro e; cases e)
  | .opaque .., .compound .. => isFalse (by intro e; cases e)
  | .opaque .., .enum .. => isFalse (by intro e; cases e)
  | .opaque .., .seq .. => isFalse (by intro e; cases e)
  | .opaque .., .array .. => isFalse (by intro e; cases e)
  | .compound .., .num .. => isFalse (by intro e; cases e)
  | .compound .., .text => isFalse (by intro e; cases e)
  | .compound .., .opaque .. => isFalse (by intro e; cases e)
  | .compound .., .enum .. => isFalse (by intro e; cases e)
  | .compound .., .seq .. => isFalse (by intro e; cases e)
  | .compound .., .array .. => isFalse (by intro e; cases e)
  | .enum .., .num .. => isFalse (by intro e; cases e)
  | .enum .., .text => isFalse (by intro e; cases e)
  | .enum .., .opaque .. => isFalse (by intro e; cases e)
  | .enum .., .compound .. => isFalse (by intro e; cases e)
  | .enum .., .seq .. => isFalse (by intro e; cases e)
  | .enum .., .array .. => isFalse (by intro e; cases e)
  | .seq .., .num .. => isFalse (by intro e; cases e)
  | .seq .., .text => isFalse (by intro e; cases e)
  | .seq .., .opaque .. => isFalse (by intro e; cases e)
  | .seq .., .compound .. => isFalse (by intro e; cases e)
  | .seq .., .enum .. => isFalse (by intro e; cases e)
  | .seq .., .array .. => isFalse (by intro e; cases e)
  | .array .., .num .. => isFalse (by intro e; cases e)
  | .array .., .text => isFalse (by intro e; cases e)
  | .array .., .opaque .. => isFalse (by intro e; cases e)
  | .array .., .compound .. => isFalse (by intro e; cases e)
  | .array .., .enum .. => isFalse (by intro e; cases e)
  | .array .., .seq .. => isFalse (by intro e; cases e)
/-- Equality of lists of types is decidable. -/
def Ty.decEqList : (a b : List Ty) → Decidable (a = b)
  | [], [] => isTrue rfl
  | [], _ :: _ => isFalse (by intro e; cases e)
  | _ :: _, [] => isFalse (by intro e; cases e)
  | x :: xs, y :: ys =>
    have := Ty.decEq x y
    have := Ty.decEqList xs ys
    decidable_of_iff (x = y ∧ xs = ys) (by simp)
end

instance : DecidableEq Ty := Ty.decEq

/-- The number that an integer of this size and sign is. -/
def intKind : Nat → Bool → Option Kind
  | 1, true => some .i8 | 2, true => some .i16 | 4, true => some .i32 | 8, true => some .i64
  | 1, false => some .u8 | 2, false => some .u16 | 4, false => some .u32 | 8, false => some .u64
  | _, _ => none

/-- The integer with these bits. -/
def ofBits (len : Nat) (signed : Bool) (bits : Nat) : Int :=
  if signed then Int.bmod bits (256 ^ len) else (bits % 256 ^ len : Nat)

mutual
/-- The type that is stored; references are the addresses they point to. `none` for those that netCDF-4
does not have (times, members with dimensions of their own in the old encoding). -/
def DT.ty : DT → Option Ty
  | .fixed len signed _ => (intKind len signed).map .num
  | .float len _ => if len = 4 then some (.num .f32) else if len = 8 then some (.num .f64) else none
  | .str _ => some .text
  | .ref _ => some (.num .u64)
  | .opaque len _ => some (.opaque len)
  | .compound _ ms ts =>
    if ms.all (fun m => m.2.2.getD [] = []) then (tys ts).map (.compound (ms.map (·.1))) else none
  | .enum _ (.fixed len signed _) names vals =>
    (intKind len signed).map fun k => .enum k names (vals.map (ofBits len signed))
  | .vlen _ true _ => some .text
  | .vlen _ false e => e.ty.map .seq
  | .array _ dims e => e.ty.map (.array dims)
  | _ => none
/-- The types of the members. -/
def tys : List DT → Option (List Ty)
  | [] => some []
  | t :: ts =>
    match t.ty, tys ts with
    | some x, some xs => some (x :: xs)
    | _, _ => none
end

/-- The types that are declared with a name. -/
def Ty.declared : Ty → Bool
  | .opaque _ | .compound _ _ | .enum _ _ _ | .seq _ => true
  | _ => false

/-- The name of a kind of numbers. -/
def kindText : Notation → Kind → Bytes
  | .cdl, k => k.cdl
  | .go, k => k.name

/-- A decimal number. -/
def decimal (i : Int) : Bytes :=
  match i with
  | .ofNat n => decDigits n
  | .negSucc n => ascii "-" ++ decDigits (n + 1)

/-- `NAME = VALUE` -/
def enumItems : List Bytes → List Int → List Bytes
  | n :: ns, v :: vs => (ascii "\t" ++ n ++ ascii " = " ++ decimal v) :: enumItems ns vs
  | _, _ => []

/-- In Go the first constant has the type. -/
def constItems (owner : Bytes) : List Bytes → List Int → List Bytes
  | n :: ns, v :: vs => (ascii "\t" ++ n ++ ascii " " ++ owner ++ ascii " = " ++ decimal v) :: enumItems ns vs
  | _, _ => []

mutual
/-- A type written out; the types inside are called by their names (`call`) if they have one. `owner`
is what is being described. -/
def Ty.body (nt : Notation) (owner : Bytes) (call : Ty → Option Bytes) : Ty → Bytes
  | .num k => kindText nt k
  | .text => ascii "string"
  | .opaque n =>
    match nt with
    | .cdl => ascii "opaque(" ++ decDigits n ++ ascii ")"
    | .go => ascii "[" ++ decDigits n ++ ascii "]uint8"
  | .compound names ts =>
    match nt with
    | .cdl => ascii "compound {\n" ++ (Ty.members nt owner call names ts).flatten ++ ascii "}"
    | .go => ascii "struct {\n" ++ (ascii "\n").intercalate (Ty.members nt owner call names ts) ++ ascii "\n}\n"
  | .enum k names vals =>
    match nt with
    | .cdl => kindText nt k ++ ascii " enum {\n" ++ (ascii ",\n").intercalate (enumItems names vals) ++ ascii "\n}"
    | .go => kindText nt k ++ ascii "\nconst (\n" ++ (ascii "\n").intercalate (constItems owner names vals) ++ ascii "\n)\n"
  | .seq t =>
    match nt with
    | .cdl => (call t).getD (t.body nt owner call) ++ ascii "(*)"
    | .go => ascii "[]" ++ (call t).getD (t.body nt owner call)
  | .array dims t =>
    match nt with
    | .cdl => (call t).getD (t.body nt owner call) ++ ascii "(" ++ (ascii ",").intercalate (dims.map decDigits) ++ ascii ")"
    | .go => (dims.map fun d => ascii "[" ++ decDigits d ++ ascii "]").flatten ++ (call t).getD (t.body nt owner call)
/-- The members of a compound: the type and the name in CDL, the name and the type in Go. -/
def Ty.members (nt : Notation) (owner : Bytes) (call : Ty → Option Bytes) : List Bytes → List Ty → List Bytes
  | n :: ns, t :: ts =>
    (match nt with
    | .cdl => ascii "\t" ++ (call t).getD (t.body nt owner call) ++ ascii " " ++ n ++ ascii ";\n"
    | .go => ascii "\t" ++ n ++ ascii " " ++ (call t).getD (t.body nt owner call)) :: Ty.members nt owner call ns ts
  | _, _ => []
end

/-- A type by its name, or written out. -/
def Ty.write (nt : Notation) (owner : Bytes) (call : Ty → Option Bytes) (t : Ty) : Bytes :=
  (call t).getD (t.body nt owner call)

/-- A byte of a name: no control characters, no space, none of `( ) * , ; = [ ] { }`. -/
def nameByte (b : UInt8) : Bool :=
  decide (32 < b) && ![40, 41, 42, 44, 59, 61, 91, 93, 123, 125].contains b

/-- A name that a type or a member can have. -/
def IsName (n : Bytes) : Prop := n ≠ [] ∧ n.all nameByte = true

/-- The words of CDL and Go for types, which no declared type may have as its name. -/
def typeWords : List Bytes :=
  [ascii "compound", ascii "opaque", ascii "string", ascii "struct", ascii "byte", ascii "short", ascii "int",
    ascii "int64", ascii "ubyte", ascii "ushort", ascii "uint", ascii "uint64", ascii "float", ascii "double",
    ascii "int8", ascii "int16", ascii "int32", ascii "uint8", ascii "uint16", ascii "uint32", ascii "float32", ascii "float64"]

mutual
/-- A type as netCDF-4 has them: compounds and enumerations have members, members have names,
numbers of enumerations are integers, arrays have dimensions. -/
def Ty.Ok : Ty → Prop
  | .num _ => True
  | .text => True
  | .opaque _ => True
  | .compound names ts => names.length = ts.length ∧ names ≠ [] ∧ (∀ n ∈ names, IsName n) ∧ Ty.OkAll ts
  | .enum _ names vals => names.length = vals.length ∧ names ≠ [] ∧ ∀ n ∈ names, IsName n
  | .seq t => t.Ok
  | .array dims t => dims ≠ [] ∧ t.Ok
/-- All of them. -/
def Ty.OkAll : List Ty → Prop
  | [] => True
  | t :: ts => t.Ok ∧ Ty.OkAll ts
end

mutual
/-- The type or one of those inside has the property. -/
def Ty.Has (p : Ty → Prop) : Ty → Prop
  | .compound names ts => p (.compound names ts) ∨ Ty.HasAny p ts
  | .seq t => p (.seq t) ∨ t.Has p
  | .array ds t => p (.array ds t) ∨ t.Has p
  | t => p t
/-- One of the types. -/
def Ty.HasAny (p : Ty → Prop) : List Ty → Prop
  | [] => False
  | t :: ts => t.Has p ∨ Ty.HasAny p ts
end

/-- The types of a group and their names: what the file says, with different names and different
types, and none of them an array. -/
structure Catalogue (types : List NamedType) (cat : List (Bytes × Ty)) : Prop where
  stored : types.map (fun p => (p.1, p.2.bind DT.ty)) = cat.map fun p => (p.1, some p.2)
  names : (cat.map (·.1)).Nodup
  apart : ∀ p ∈ cat, ∀ q ∈ cat, p.2 = q.2 → p.2.declared = true → p = q
  plain : ∀ p ∈ cat, (∀ ds t, p.2 ≠ .array ds t) ∧ p.2.Ok ∧ IsName p.1 ∧ p.1 ∉ typeWords

/-- The name of a declared type. -/
def nameIn (cat : List (Bytes × Ty)) (t : Ty) : Option Bytes :=
  if t.declared then (cat.find? fun p => p.2 = t).map (·.1) else none

/-- What Go cannot tell apart: an array of arrays from an array with more dimensions, and arrays of
bytes from opaque types (`op`: there are opaque types). -/
def vague (op : Bool) : Ty → Prop
  | .array _ (.array _ _) => True
  | .array _ (.num .u8) => op = true
  | .opaque _ => op = false
  | _ => False

/-- The declared types of the group `g` in the file: links have different names, the types have different
structures, none is an array, and they have no attributes. -/
structure TypesOf (g : Obj) (cat : List (Bytes × Ty)) : Prop where
  stored : (g.kids.filter fun k => !k.info.isGroup && k.info.dims.isNone).map (fun k => (k.info.name, k.info.dt.bind DT.ty)) =
    cat.map fun p => (p.1, some p.2)
  links : (g.kids.map (·.info.name)).Nodup
  apart : ∀ p ∈ cat, ∀ q ∈ cat, p.2 = q.2 → p.2.declared = true → p = q
  plain : ∀ p ∈ cat, (∀ ds t, p.2 ≠ .array ds t) ∧ p.2.Ok ∧ IsName p.1 ∧ p.1 ∉ typeWords
  bare : ∀ k ∈ g.kids, k.info.isGroup = false → k.info.dims = none → k.info.attrs = []

/-- Go visits the keys of a map in any order, and in another one each time. -/
def Iteration (ord : List Nat → List NamedType → List NamedType) : Prop := ∀ p l, (ord p l).Perm l

end Verif.H5
