import Verif.Spec.Filters
import Verif.Spec.H5Object
/-!
The filters of a chunk, as they are applied when it is stored. HDF5 File Format Specification,
IV.A.2.l (filter pipeline message) and III.A.1 (the filter mask of a chunk).
-/
namespace Verif.H5

/-- The filters `fs`, numbered from `j`, turn the bytes `b` into the bytes `out`. A filter whose bit
in `mask` is set is skipped. `inflate` undoes compression. `packed` says that compression came
before; then there is no shuffling and no further compression. -/
inductive Encoded (inflate : Bytes → Res Bytes) (mask : Nat) : Nat → Bool → List (Nat × List Nat) → Bytes → Bytes → Prop
  | nil (j : Nat) (packed : Bool) (b : Bytes) : Encoded inflate mask j packed [] b b
  | skip (j : Nat) (packed : Bool) (f : Nat × List Nat) (fs : List (Nat × List Nat)) (b out : Bytes) :
      mask.testBit j = true → Encoded inflate mask (j + 1) packed fs b out → Encoded inflate mask j packed (f :: fs) b out
  | deflate (j : Nat) (ps : List Nat) (fs : List (Nat × List Nat)) (b z out : Bytes) :
      mask.testBit j = false → inflate z = .ok b → Encoded inflate mask (j + 1) true fs z out →
      Encoded inflate mask j false ((1, ps) :: fs) b out
  | shuffle (j n : Nat) (ps : List Nat) (fs : List (Nat × List Nat)) (b out : Bytes) :
      mask.testBit j = false → 0 < n → n ∣ b.length → Encoded inflate mask (j + 1) false fs (h5Shuffle n b) out →
      Encoded inflate mask j false ((2, n :: ps) :: fs) b out
  | fletcher (j : Nat) (packed : Bool) (ps : List Nat) (fs : List (Nat × List Nat)) (b out : Bytes) :
      mask.testBit j = false → b.length < 2 ^ 63 → ((beWords b).sum = 0 ∨ (beWords b).sum % 65535 ≠ 0) →
      (sumOfSums 0 (beWords b) = 0 ∨ sumOfSums 0 (beWords b) % 65535 ≠ 0) →
      Encoded inflate mask (j + 1) packed fs (b ++ leEnc 4 (h5Fletcher32 b)) out →
      Encoded inflate mask j packed ((3, ps) :: fs) b out

end Verif.H5
