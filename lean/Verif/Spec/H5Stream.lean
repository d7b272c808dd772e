import Verif.Base.Bytes
/-!
The byte stream of a variable: stored pieces at their positions, and the fill value where there is
none. Nothing here depends on the model.
-/
namespace Verif.H5

/-- Stored bytes and the position of the first of them. -/
structure Piece where
  offset : Nat
  data : Bytes
deriving DecidableEq

/-- The piece has a byte for position `p`. -/
def Piece.Covers (s : Piece) (p : Nat) : Prop := s.offset ≤ p ∧ p < s.offset + s.data.length

/-- One of the pieces ends before the other starts. -/
def Piece.Apart (s t : Piece) : Prop :=
  s.offset + s.data.length ≤ t.offset ∨ t.offset + t.data.length ≤ s.offset

/-- `out` has the positions from `first` to `last` of the stream: the stored byte where a piece
covers the position, and the fill byte where none does. The order of the pieces does not matter. -/
def IsStream (pieces : List Piece) (fill : Nat → UInt8) (first last : Nat) (out : Bytes) : Prop :=
  out.length = last - first ∧
  ∀ p, first ≤ p → p < last →
    (∀ s ∈ pieces, s.Covers p → out[p - first]? = s.data[p - s.offset]?) ∧
    ((∀ s ∈ pieces, ¬ s.Covers p) → out[p - first]? = some (fill p))

/-- The byte at position `p` of a repeated pattern. -/
def patByte (pat : Bytes) (p : Nat) : UInt8 := pat.getD (p % pat.length) 0

/-- Pieces one after the other. -/
def consecutive : Nat → List Bytes → List Piece
  | _, [] => []
  | off, b :: bs => ⟨off, b⟩ :: consecutive (off + b.length) bs

end Verif.H5
