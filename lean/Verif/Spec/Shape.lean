import Verif.Model.GoVal
/-!
Specification of rectangular Go values: what "an array of shape `d0 × d1 × ...`" means, written
without the model of the code.
-/
namespace Verif

/-- Number of elements of an array with the given lengths. -/
def prod : List Nat → Nat
  | [] => 1
  | d :: ds => d * prod ds

/-- `[][]...base`, one level per length. -/
def tyNest (base : GoTy) : List Nat → GoTy
  | [] => base
  | _ :: ds => .slice (tyNest base ds)

/-- `v` is a rectangular array with the given lengths; the elements satisfy `leaf`. -/
def Rect (base : GoTy) (leaf : GoVal → Prop) : List Nat → GoVal → Prop
  | [], v => leaf v
  | d :: ds, v =>
    ∃ xs, v = .slice (tyNest base ds) xs ∧ xs.length = d ∧ ∀ x ∈ xs, Rect base leaf ds x

/-- A number of kind `k` with bits in range (every Go number is). -/
def NumVal (k : Kind) (v : GoVal) : Prop := ∃ bits, v = .num k bits ∧ bits < 256 ^ k.size

/-- A string of at most `n` bytes. -/
def StrVal (n : Nat) (v : GoVal) : Prop := ∃ s, v = .str s ∧ s.length ≤ n

/-- A rectangular array of numbers. -/
def NumArray (k : Kind) (dims : List Nat) (v : GoVal) : Prop := Rect (.num k) (NumVal k) dims v

/-- A rectangular array of strings of at most `n` bytes. -/
def StrArray (n : Nat) (dims : List Nat) (v : GoVal) : Prop := Rect .str (StrVal n) dims v

/-- Elements in row-major order. -/
def leaves : Nat → GoVal → List GoVal
  | 0, v => [v]
  | n + 1, .slice _ xs => xs.flatMap (leaves n)
  | _ + 1, _ => []

/-- The same array with `f` applied to every element. -/
def mapLeaves (f : GoVal → GoVal) : Nat → GoVal → GoVal
  | 0, v => f v
  | n + 1, .slice e xs => .slice e (xs.map (mapLeaves f n))
  | _ + 1, v => v

/-- A string extended with NUL bytes to length `n`. -/
def padNul (n : Nat) : GoVal → GoVal
  | .str s => .str (s ++ List.replicate (n - s.length) 0)
  | v => v

/-- Go slicing `v[b:e]`. -/
def goSlice (b e : Nat) : GoVal → GoVal
  | .slice t xs => .slice t ((xs.drop b).take (e - b))
  | .str s => .str ((s.drop b).take (e - b))
  | v => v

/-- Slicing in several dimensions: `v[b0:e0]`, and every element of it by the rest. -/
def boxSlice : List (Nat × Nat) → GoVal → GoVal
  | (b, e) :: rs, .slice t xs => .slice t (((xs.drop b).take (e - b)).map (boxSlice rs))
  | (b, e) :: _, .str s => .str ((s.drop b).take (e - b))
  | _, v => v

/-- The bounds lie inside the array in every dimension. -/
def InBox : List (Nat × Nat) → List Nat → Prop
  | [], [] => True
  | (b, e) :: rs, d :: ds => b ≤ e ∧ e ≤ d ∧ InBox rs ds
  | _, _ => False

end Verif
