import Verif.Lemmas.CdfEnc
/-!
C08: fixed-width integers. `beEnc`/`leEnc` stand for `binary.Write` with `binary.BigEndian` (CDF)
and `binary.LittleEndian` (HDF5), `beDec`/`leDec` for `binary.Read`.
-/
namespace Verif

/-- Two's complement bit pattern of a `k`-byte integer. -/
def toBits (k : Nat) (x : Int) : Nat := (x % (256 ^ k : Nat)).toNat

/-- The `k`-byte integer with a bit pattern. -/
def ofBits (k n : Nat) : Int := if 2 * n < 256 ^ k then n else (n : Int) - (256 ^ k : Nat)

theorem ofBits_toBits (k : Nat) (x : Int) (h1 : -(256 ^ k : Nat) ≤ 2 * x)
    (h2 : 2 * x < (256 ^ k : Nat)) : ofBits k (toBits k x) = x := by
  have hp : 0 < 256 ^ k := Nat.pow_pos (by decide)
  unfold ofBits toBits
  generalize 256 ^ k = M at *
  by_cases hx : 0 ≤ x
  · have : x % (M : Int) = x := Int.emod_eq_of_lt hx (by omega)
    rw [this, if_pos (by omega)]; omega
  · have : x % (M : Int) = x + M := by
      rw [← Int.add_emod_right]
      exact Int.emod_eq_of_lt (by omega) (by omega)
    rw [this, if_neg (by omega)]; omega

/-- The bytes are the base-256 digits, least significant first in little-endian order ... -/
theorem C08_le_digits (k n i : Nat) (h : i < k) :
    (leEnc k n)[i]? = some (UInt8.ofNat (n / 256 ^ i % 256)) := by
  induction k generalizing n i with
  | zero => omega
  | succ k ih =>
    cases i with
    | zero => simp [leEnc]
    | succ i =>
      simp only [leEnc, List.getElem?_cons_succ]
      rw [ih (n / 256) i (by omega), Nat.div_div_eq_div_mul, Nat.pow_succ, Nat.mul_comm]

/-- ... and most significant first in big-endian order. -/
theorem C08_be_digits (k n i : Nat) (h : i < k) :
    (beEnc k n)[i]? = some (UInt8.ofNat (n / 256 ^ (k - 1 - i) % 256)) := by
  unfold beEnc
  rw [List.getElem?_reverse (by rw [leEnc_length]; exact h), leEnc_length]
  exact C08_le_digits k n _ (by omega)

/-- **C08.** Every `k`-byte unsigned or signed integer is read back unchanged from its encoding in
either byte order, the encoding has `k` bytes, and different integers have different encodings. -/
theorem C08_codec (k : Nat) :
    (∀ n, n < 256 ^ k → (beEnc k n).length = k ∧ (leEnc k n).length = k ∧
      beDec (beEnc k n) = n ∧ leDec (leEnc k n) = n) ∧
    (∀ x : Int, -(256 ^ k : Nat) ≤ 2 * x → 2 * x < (256 ^ k : Nat) →
      ofBits k (beDec (beEnc k (toBits k x))) = x ∧ ofBits k (leDec (leEnc k (toBits k x))) = x) ∧
    ∀ b : Bytes, b.length = k → beEnc k (beDec b) = b ∧ leEnc k (leDec b) = b := by
  refine ⟨fun n h => ⟨beEnc_length _ _, leEnc_length _ _, beDec_beEnc_of_lt h, leDec_leEnc_of_lt h⟩,
    ?_, ?_⟩
  · intro x h1 h2
    have hp : 0 < 256 ^ k := Nat.pow_pos (by decide)
    have hb : toBits k x < 256 ^ k := by
      unfold toBits
      have := Int.emod_lt_of_pos x (b := ((256 ^ k : Nat) : Int)) (by omega)
      have := Int.emod_nonneg x (b := ((256 ^ k : Nat) : Int)) (by omega)
      omega
    rw [beDec_beEnc_of_lt hb, leDec_leEnc_of_lt hb]
    exact ⟨ofBits_toBits k x h1 h2, ofBits_toBits k x h1 h2⟩
  · intro b hb
    subst hb
    exact ⟨beEnc_beDec b, leEnc_leDec b⟩

/-- **C08**, in the header reader of CDF: a number is read back and the rest of the stream is left
untouched. -/
theorem C08_stream (n : Nat) (rest : Bytes) :
    (n < 2 ^ 32 → Cdf.read32 (beEnc 4 n ++ rest) = .ok (n, rest)) ∧
    (n < 2 ^ 64 → Cdf.read64 (beEnc 8 n ++ rest) = .ok (n, rest)) :=
  ⟨fun h => Cdf.reads_read32 (by omega) rest, fun h => Cdf.reads_read64 (by omega) rest⟩

example : toBits 2 (-2) = 65534 ∧ beEnc 2 65534 = [0xff, 0xfe] ∧ leEnc 2 65534 = [0xfe, 0xff] ∧
    ofBits 2 65534 = -2 := by decide
example : -(256 ^ 2 : Nat) ≤ 2 * (-32768 : Int) ∧ 2 * (-32768 : Int) < (256 ^ 2 : Nat) := by decide

end Verif
