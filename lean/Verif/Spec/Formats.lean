import Verif.Spec.CdfWrite
import Verif.Spec.H5Session
import Verif.Spec.H5Read
/-!
Specification of "the same file in the other format": what a program gets that gives another format
to `OpenWriter` and changes nothing else.
-/
namespace Verif.H5
open Verif.Cdf (Call)

/-- The same call on a writer of HDF5 files. -/
def sameCall : Call → HCall
  | .addVar name vr => .addVar [] name vr.values vr.dimensions vr.attributes
  | .addAttributes attrs => .addAttributes [] attrs

/-- The value `c` from a CDF file says the same as the value `x` from an HDF5 file: it is the same, or
its strings have been extended with NUL bytes to a common length. -/
inductive SaysTheSame : GoVal → GoVal → Prop
  | same (v : GoVal) : SaysTheSame v v
  | padded (L n : Nat) (v : GoVal) : n ≠ 0 → SaysTheSame (mapLeaves (padNul L) n v) v

end Verif.H5
