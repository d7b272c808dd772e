import Verif.Model.OrderedMap
/-!
Go values that users hand to the writers and get back from the readers, as far as the packages
look at them through `reflect` and type switches.
-/
namespace Verif

/-- Numeric Go kinds the packages support. -/
inductive Kind
  | i8 | i16 | i32 | i64 | u8 | u16 | u32 | u64 | f32 | f64
deriving DecidableEq, Repr

/-- Width in bytes. -/
def Kind.size : Kind → Nat
  | .i8 | .u8 => 1
  | .i16 | .u16 => 2
  | .i32 | .u32 | .f32 => 4
  | .i64 | .u64 | .f64 => 8

namespace H5

/-- The Go types of values that are read. `opaque` and `compound` are named slices, of bytes and of
`compoundField`s (`field`). -/
inductive TTy
  | num (k : Kind)
  | str
  | slice (t : TTy)
  | opaque
  | compound
  | field
  | enum
  | nil
deriving DecidableEq, Repr

/-- The values: netcdf/hdf5/compound.go:14-18, enum.go:13-17, opaque.go:11. `nil` is the nil
interface. -/
inductive TVal
  | num (k : Kind) (bits : Nat)
  | str (s : Bytes)
  | slice (elem : TTy) (xs : List TVal)
  | opaque (b : Bytes)
  | compound (names : List Bytes) (vals : List TVal)
  | field (name : Bytes) (val : TVal)
  | enum (vals : TVal) (names : List Bytes) (members : List TVal)
  | nil
deriving Repr

/-- `reflect.TypeOf`. -/
def TVal.ty : TVal → TTy
  | .num k _ => .num k
  | .str _ => .str
  | .slice t _ => .slice t
  | .opaque _ => .opaque
  | .compound _ _ => .compound
  | .field _ _ => .field
  | .enum _ _ _ => .enum
  | .nil => .nil

/-- netcdf/hdf5/hdf5.go:3434-3437: `elemType.Kind() == reflect.Slice`, as often as it is so: the type
inside and the number of slices. -/
def stripKinds : TTy → TTy × Nat
  | .slice t => ((stripKinds t).1, (stripKinds t).2 + 1)
  | .opaque => (.num .u8, 1)
  | .compound => (.field, 1)
  | t => (t, 0)

mutual
/-- Equality of these values, as a test. -/
def TVal.eqb : TVal → TVal → Bool
  | .num k x, .num k' x' => k == k' && x == x'
  | .str s, .str s' => s == s'
  | .slice e xs, .slice e' xs' => e == e' && TVal.eqbs xs xs'
  | .opaque b, .opaque b' => b == b'
  | .compound ns vs, .compound ns' vs' => ns == ns' && TVal.eqbs vs vs'
  | .field n v, .field n' v' => n == n' && TVal.eqb v v'
  | .enum v ns ms, .enum v' ns' ms' => TVal.eqb v v' && (ns == ns' && TVal.eqbs ms ms')
  | .nil, .nil => true
  | _, _ => false
/-- The elements. -/
def TVal.eqbs : List TVal → List TVal → Bool
  | [], [] => true
  | x :: xs, y :: ys => TVal.eqb x y && TVal.eqbs xs ys
  | _, _ => false
end

mutual
theorem TVal.eqb_iff : ∀ a b : TVal, TVal.eqb a b = true ↔ a = b
  | .num k x, b => by cases b <;> simp [TVal.eqb]
  | .str s, b => by cases b <;> simp [TVal.eqb]
  | .slice e xs, b => by cases b <;> simp [TVal.eqb, TVal.eqbs_iff xs]
  | .opaque x, b => by cases b <;> simp [TVal.eqb]
  | .compound ns vs, b => by cases b <;> simp [TVal.eqb, TVal.eqbs_iff vs]
  | .field n v, b => by cases b <;> simp [TVal.eqb, TVal.eqb_iff v]
  | .enum v ns ms, b => by cases b <;> simp [TVal.eqb, TVal.eqb_iff v, TVal.eqbs_iff ms]
  | .nil, b => by cases b <;> simp [TVal.eqb]
theorem TVal.eqbs_iff : ∀ a b : List TVal, TVal.eqbs a b = true ↔ a = b
  | [], b => by cases b <;> simp [TVal.eqbs]
  | x :: xs, b => by cases b <;> simp [TVal.eqbs, TVal.eqb_iff x, TVal.eqbs_iff xs]
end

instance : DecidableEq TVal := fun a b => decidable_of_iff _ (TVal.eqb_iff a b)

end H5

/-- Static Go types, as seen by `reflect.Type`. `other true` is a type with a `Len` (map, chan),
`other false` any remaining type (struct, bool, int, pointer, interface, ...). Go arrays and named
types are not modelled. -/
inductive GoTy
  | num (k : Kind)
  | str
  | slice (t : GoTy)
  | other (lenable : Bool)
deriving DecidableEq, Repr

/-- Go values. A number is its bit pattern, an unsigned number below `256 ^ size`. A slice carries
its element type (an empty slice has one too). `other false` also stands for the nil interface.
`user` is a value with one of the types that are private to netcdf/hdf5, alone or in slices (the slices
are then inside `user`); a user gets such values by reading. -/
inductive GoVal
  | num (k : Kind) (bits : Nat)
  | str (s : Bytes)
  | slice (elem : GoTy) (xs : List GoVal)
  | other (lenable : Bool)
  | user (v : H5.TVal)
deriving Repr

mutual
/-- Equality of Go values is decidable. -/
def GoVal.decEq : (a b : GoVal) → Decidable (a = b)
  | .num k x, .num k' x' =>
    if h : k = k' ∧ x = x' then isTrue (by rw [h.1, h.2])
    else isFalse (by intro e; cases e; exact h ⟨rfl, rfl⟩)
  | .str s, .str s' =>
    if h : s = s' then isTrue (by rw [h]) else isFalse (by intro e; cases e; exact h rfl)
  | .slice e xs, .slice e' xs' =>
    if h : e = e' then
      match GoVal.decEqList xs xs' with
      | isTrue h2 => isTrue (by rw [h, h2])
      | isFalse h2 => isFalse (by intro e; cases e; exact h2 rfl)
    else isFalse (by intro e; cases e; exact h rfl)
  | .other b, .other b' =>
    if h : b = b' then isTrue (by rw [h]) else isFalse (by intro e; cases e; exact h rfl)
  | .user v, .user v' =>
    if h : v = v' then isTrue (by rw [h]) else isFalse (by intro e; cases e; exact h rfl)
  | .num .., .str .. => isFalse (by intro e; cases e)
  | .num .., .slice .. => isFalse (by intro e; cases e)
  | .num .., .other .. => isFalse (by intro e; cases e)
  | .str .., .num .. => isFalse (by intro e; cases e)
  | .str .., .slice .. => isFalse (by intro e; cases e)
  | .str .., .other .. => isFalse (by intro e; cases e)
  | .slice .., .num .. => isFalse (by intro e; cases e)
  | .slice .., .str .. => isFalse (by intro e; cases e)
  | .slice .., .other .. => isFalse (by intro e; cases e)
  | .other .., .num .. => isFalse (by intro e; cases e)
  | .other .., .str .. => isFalse (by intro e; cases e)
  | .other .., .slice .. => isFalse (by intro e; cases e)
  | .num .., .user .. => isFalse (by intro e; cases e)
  | .user .., .num .. => isFalse (by intro e; cases e)
  | .str .., .user .. => isFalse (by intro e; cases e)
  | .user .., .str .. => isFalse (by intro e; cases e)
  | .slice .., .user .. => isFalse (by intro e; cases e)
  | .user .., .slice .. => isFalse (by intro e; cases e)
  | .other .., .user .. => isFalse (by intro e; cases e)
  | .user .., .other .. => isFalse (by intro e; cases e)
/-- Equality of lists of Go values is decidable. -/
def GoVal.decEqList : (a b : List GoVal) → Decidable (a = b)
  | [], [] => isTrue rfl
  | [], _ :: _ => isFalse (by intro e; cases e)
  | _ :: _, [] => isFalse (by intro e; cases e)
  | x :: xs, y :: ys =>
    match GoVal.decEq x y with
    | isTrue h =>
      match GoVal.decEqList xs ys with
      | isTrue h2 => isTrue (by rw [h, h2])
      | isFalse h2 => isFalse (by intro e; cases e; exact h2 rfl)
    | isFalse h => isFalse (by intro e; cases e; exact h rfl)
end

instance : DecidableEq GoVal := GoVal.decEq

example : GoVal.slice .str [.str [1], .str []] ≠ GoVal.slice .str [.str [1], .num .i8 3] := by
  decide

/-- The dynamic type of a value; `GoTy` has none for the private types. -/
def GoVal.ty : GoVal → GoTy
  | .num k _ => .num k
  | .str _ => .str
  | .slice e _ => .slice e
  | .other b => .other b
  | .user _ => .other false

/-- Attribute maps handed to the writers (`api.AttributeMap`), `none` is nil. -/
abbrev Attrs := Option (OMap GoVal)

/-- ASCII literal to bytes, for the literals in the source. -/
def ascii (s : String) : Bytes := s.toList.map (fun c => UInt8.ofNat c.toNat)

/-- `strconv`/`fmt` decimal digits of a non-negative integer. -/
def decDigits (n : Nat) : Bytes :=
  if n < 10 then [UInt8.ofNat (48 + n)]
  else decDigits (n / 10) ++ [UInt8.ofNat (48 + n % 10)]
termination_by n
decreasing_by omega

end Verif
