import Verif.Spec.Shape
/-!
Specification of how an array is laid out in a CDF file: big-endian elements in row-major order;
strings are rows of characters along the last dimension.
-/
namespace Verif

/-- Big-endian bytes of a number. -/
def numBytes : GoVal → Bytes
  | .num k bits => beEnc k.size bits
  | _ => []

/-- The bytes of a string. -/
def strBytes : GoVal → Bytes
  | .str s => s
  | _ => []

/-- A string of exactly `n` bytes. -/
def StrLen (n : Nat) (v : GoVal) : Prop := ∃ s, v = .str s ∧ s.length = n

/-- `v` is the array of the given lengths whose elements, in row-major order, are `bytes`. For
`none` (characters) the last length is that of the strings. -/
def Stored (k : Option Kind) (dims : List Nat) (bytes : Bytes) (v : GoVal) : Prop :=
  match k with
  | some k => NumArray k dims v ∧ (leaves dims.length v).flatMap numBytes = bytes
  | none => ∃ ds L, dims = ds ++ [L] ∧ Rect .str (StrLen L) ds v ∧
      (leaves ds.length v).flatMap strBytes = bytes

end Verif
