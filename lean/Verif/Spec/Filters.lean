import Verif.Base.Bytes
/-!
Specification of the HDF5 filters shuffle and Fletcher-32.
-/
namespace Verif

/-- The shuffle filter of HDF5 for elements of `n` bytes: first the first byte of every element,
then the second byte of every element, ..., at the end the bytes that do not fill an element. -/
def h5Shuffle (n : Nat) (data : Bytes) : Bytes :=
  (List.range n).flatMap (fun i => (List.range (data.length / n)).map fun j => data.getD (j * n + i) 0)
    ++ data.drop (data.length / n * n)

/-- The 16-bit big-endian words of a byte string, an odd last byte followed by a zero byte. -/
def beWords : Bytes → List Nat
  | [] => []
  | [x] => [x.toNat * 256]
  | x :: y :: r => (x.toNat * 256 + y.toNat) :: beWords r

/-- The sum of the sums of all non-empty prefixes. -/
def sumOfSums (acc : Nat) : List Nat → Nat
  | [] => 0
  | w :: ws => (acc + w) + sumOfSums (acc + w) ws

/-- Reduction of a 32-bit sum to 16 bits by end-around carry, as the HDF5 library does it: the
residue modulo 65535, where only 0 itself is represented by 0. -/
def fold16 (x : Nat) : Nat := if x = 0 then 0 else (x - 1) % 65535 + 1

/-- The Fletcher-32 checksum of the HDF5 library. -/
def h5Fletcher32 (data : Bytes) : Nat :=
  fold16 (sumOfSums 0 (beWords data)) * 65536 + fold16 (beWords data).sum

end Verif
