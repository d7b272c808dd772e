import Verif.Spec.Shape
import Verif.Model.H5Type
/-!
Specification for values in HDF5 files: the values that survive, without the model of the code.
-/
namespace Verif.H5

/-- A string without NUL, of less than 4 GB. -/
def CStr (v : GoVal) : Prop := ∃ s, v = .str s ∧ (0 : UInt8) ∉ s ∧ s.length < 2 ^ 32

/-- A slice of numbers. -/
def Row (k : Kind) (v : GoVal) : Prop :=
  ∃ ys, v = .slice (.num k) ys ∧ (∀ y ∈ ys, NumVal k y) ∧ ys.length < 2 ^ 32

/-- Of the slices at depth `n`, no group has rows of one length only. -/
def Uneven : Nat → GoVal → Prop
  | 1, .slice _ xs => ∃ e a b, .slice e a ∈ xs ∧ .slice e b ∈ xs ∧ a.length ≠ b.length
  | n + 2, .slice _ xs => ∀ x ∈ xs, Uneven (n + 1) x
  | _, _ => False

/-- Lengths that fit in a dataspace message. -/
def FitDims (dims : List Nat) : Prop := dims.length ≤ 255 ∧ ∀ d ∈ dims, d < 2 ^ 64

/-- The attribute values that are read back as they are: numbers and arrays of them, strings and
arrays of strings, and arrays of number sequences of different lengths. A length may be zero only in
the last dimension, and not for floating point numbers. -/
inductive AttrOK : GoVal → Prop
  | num (k : Kind) (dims : List Nat) (v : GoVal) : NumArray k dims v → FitDims dims →
      (∀ d ∈ dims.dropLast, d ≠ 0) → (k.isFloat = true → ∀ d ∈ dims, d ≠ 0) →
      prod dims * k.size < 2 ^ 63 → AttrOK v
  | str (s : Bytes) : (0 : UInt8) ∉ s → s.length + 1 < 2 ^ 32 → AttrOK (.str s)
  | strs (dims : List Nat) (v : GoVal) : Rect .str CStr dims v → FitDims dims → dims ≠ [] →
      (∀ d ∈ dims.dropLast, d ≠ 0) → prod dims * 16 < 2 ^ 63 → AttrOK v
  | ragged (k : Kind) (dims : List Nat) (v : GoVal) : Rect (.slice (.num k)) (Row k) dims v →
      FitDims dims → (∀ d ∈ dims, d ≠ 0) → Uneven dims.length v →
      prod dims * 16 < 2 ^ 63 → AttrOK v

mutual
/-- A bound for the bytes that an attribute value takes in its message, besides 64 bytes for its type. -/
def valueRoom : GoVal → Nat
  | .num k _ => k.size
  | .str s => s.length + 16
  | .slice _ xs => 16 + valueRooms xs
  | .other _ => 0
  | .user _ => 32000
/-- The elements. -/
def valueRooms : List GoVal → Nat
  | [] => 0
  | x :: xs => valueRoom x + valueRooms xs
end

/-- A value of numbers and strings. -/
def Common : GoVal → Prop
  | .user _ => False
  | _ => True

/-- A one-element slice is returned as its element, at the outermost level only. -/
def Unwrapped : GoVal → GoVal → Prop
  | .slice _ [x], w => w = x
  | v, w => w = v

end Verif.H5
