import Verif.Model.GoVal
/-!
Specification of data areas in a file.
-/
namespace Verif

/-- The bytes of a value in a CDF file: big-endian numbers, strings as they are, arrays in
row-major order. -/
def rawBytes : GoVal → Bytes
  | .num k bits => beEnc k.size bits
  | .str s => s
  | .slice _ xs => xs.flatMap rawBytes
  | .other _ | .user _ => []

/-- The areas, given by start and length, follow one another without gap from `start` to `stop`. -/
def Tile : Nat → List (Nat × Nat) → Nat → Prop
  | start, [], stop => start = stop
  | start, (b, n) :: rest, stop => b = start ∧ Tile (start + n) rest stop

end Verif
