import Verif.Model.H5Base
/-!
Lemmas on the reading primitives of the HDF5 reader.
-/
namespace Verif.H5

theorem rdN_append (n p : Nat) (b r : Bytes) (h : b.length = n) :
    rdN n ⟨p, b ++ r⟩ = .ok (b, ⟨p + n, r⟩) := by
  subst h
  simp [rdN]

theorem rdN_all (n p : Nat) (b : Bytes) (h : b.length = n) :
    rdN n ⟨p, b⟩ = .ok (b, ⟨p + n, []⟩) := by
  subst h
  simp [rdN]

theorem read8_app (p n : Nat) (r : Bytes) (h : n < 256) :
    read8 ⟨p, leEnc 1 n ++ r⟩ = .ok (n, ⟨p + 1, r⟩) := by
  simp only [read8, P.bind_apply, rdN_append 1 p (leEnc 1 n) r (by simp), P.pure_apply]
  rw [leDec_leEnc_of_lt (by simpa using h)]

theorem read8_cons (p : Nat) (b : UInt8) (r : Bytes) :
    read8 ⟨p, b :: r⟩ = .ok (b.toNat, ⟨p + 1, r⟩) := by
  simp [read8, P.bind_apply, rdN, P.pure_apply, leDec]

theorem read16_app (p n : Nat) (r : Bytes) (h : n < 65536) :
    read16 ⟨p, leEnc 2 n ++ r⟩ = .ok (n, ⟨p + 2, r⟩) := by
  simp only [read16, P.bind_apply, rdN_append 2 p (leEnc 2 n) r (by simp), P.pure_apply]
  rw [leDec_leEnc_of_lt (by simpa using h)]

theorem read32_app (p n : Nat) (r : Bytes) (h : n < 2 ^ 32) :
    read32 ⟨p, leEnc 4 n ++ r⟩ = .ok (n, ⟨p + 4, r⟩) := by
  simp only [read32, P.bind_apply, rdN_append 4 p (leEnc 4 n) r (by simp), P.pure_apply]
  rw [leDec_leEnc_of_lt (by simpa using h)]

theorem read64_app (p n : Nat) (r : Bytes) (h : n < 2 ^ 64) :
    read64 ⟨p, leEnc 8 n ++ r⟩ = .ok (n, ⟨p + 8, r⟩) := by
  simp only [read64, P.bind_apply, rdN_append 8 p (leEnc 8 n) r (by simp), P.pure_apply]
  rw [leDec_leEnc_of_lt (by simpa using h)]

theorem i64_of_lt {x : Nat} (h : x < 2 ^ 63) : i64 x = x := by simp [i64, h]

theorem wrap64_of {x : Int} (h1 : -2 ^ 63 ≤ x) (h2 : x < 2 ^ 63) : wrap64 x = x := by
  unfold wrap64
  omega

/-- Seeking to a block of the file. -/
theorem newSeek_block (file : Bytes) (addr size : Nat) (hf : file.length < 2 ^ 63)
    (h : addr + size ≤ file.length) (hs : 0 < size) :
    newSeek file addr size = .ok ⟨0, (file.drop addr).take size⟩ := by
  unfold newSeek
  rw [i64_of_lt (by omega), wrap64_of (by omega) (by omega)]
  rw [if_pos (by omega), if_neg (by omega)]
  simp only
  rw [if_neg (by omega)]
  simp

theorem newSeek_out (file : Bytes) (addr size : Nat) (h : file.length < addr + size)
    (h2 : addr + size < 2 ^ 63) :
    newSeek file addr size = .err .assertFail := by
  unfold newSeek
  rw [i64_of_lt (by omega), wrap64_of (by omega) (by omega)]
  rw [if_neg (by omega)]

end Verif.H5
