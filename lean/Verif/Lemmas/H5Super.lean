import Verif.Model.H5Super
import Verif.Lemmas.H5Checksum
/-!
Lemmas on the superblock.
-/
namespace Verif.H5

theorem checkChecksum_block (pre data post : Bytes) (sum : Nat) (hs : sum < 2 ^ 32)
    (hf : (pre ++ data ++ leEnc 4 sum ++ post).length < 2 ^ 63) :
    checkChecksum (pre ++ data ++ leEnc 4 sum ++ post) pre.length data.length =
      match checksum data with
      | .ok h => if h.toNat = sum then .ok () else .err .assertFail
      | .err e => .err e
      | .panic => .panic := by
  unfold checkChecksum
  have h := newSeek_block (pre ++ data ++ leEnc 4 sum ++ post) pre.length (data.length + 4) hf
    (by simp only [List.length_append, leEnc_length]; omega) (by omega)
  rw [show ((data.length : Int) + 4) = ((data.length + 4 : Nat) : Int) by omega, h]
  have e : ((pre ++ data ++ leEnc 4 sum ++ post).drop pre.length).take (data.length + 4) =
      data ++ (leEnc 4 sum ++ []) := by
    rw [List.append_nil, List.append_assoc, List.append_assoc, List.drop_left,
      ← List.append_assoc, List.take_append_of_le_length (by simp),
      List.take_of_length_le (by simp)]
  simp only [e, P.bind_apply, stream_eq data]
  cases checksum data with
  | err e => rfl
  | panic => rfl
  | ok h =>
    simp only [read32_app _ _ _ hs, P.assert]
    by_cases he : h.toNat = sum
    · rw [if_pos he, if_pos (by simpa using he)]; rfl
    · rw [if_neg he, if_neg (by simpa using he)]; rfl

/-- The first 44 bytes the writer leaves in the file. -/
def superHead (eof root : Nat) : Bytes :=
  magic ++ [2, 8, 8, 0] ++ leEnc 8 0 ++ leEnc 8 0xffffffffffffffff ++ leEnc 8 eof ++ leEnc 8 root

theorem superHead_length (eof root : Nat) : (superHead eof root).length = 44 := by
  simp [superHead, magic]

theorem putAt_append (a b c d : Bytes) (off : Nat) (h1 : a.length = off)
    (h2 : b.length = c.length) : putAt (a ++ b ++ d) off c = a ++ c ++ d := by
  subst h1
  unfold putAt
  rw [List.append_assoc a b d, List.take_left, ← List.drop_drop, List.drop_left, ← h2,
    List.drop_left]

theorem finalize_eq (body : Bytes) (root : Nat) :
    ∃ sum : UInt32, checksum (superHead (48 + body.length) root) = .ok sum ∧
      finalizeSuperblock (superblockV2 ++ body) root =
        .ok (superHead (48 + body.length) root ++ leEnc 4 sum.toNat ++ body) := by
  obtain ⟨sum, hsum, -⟩ := checksum_lookup3 (superHead (48 + body.length) root)
    (by rw [superHead_length]; omega)
  refine ⟨sum, hsum, ?_⟩
  unfold finalizeSuperblock
  have hlen : (superblockV2 ++ body).length = 48 + body.length := by
    simp [superblockV2, magic]; omega
  have e1 : putAt (superblockV2 ++ body) 28 (leEnc 8 (superblockV2 ++ body).length) =
      magic ++ [2, 8, 8, 0] ++ leEnc 8 0 ++ leEnc 8 0xffffffffffffffff ++
        leEnc 8 (48 + body.length) ++ (leEnc 8 0 ++ leEnc 4 0 ++ body) := by
    have := putAt_append (magic ++ [2, 8, 8, 0] ++ leEnc 8 0 ++ leEnc 8 0xffffffffffffffff)
      (leEnc 8 0) (leEnc 8 (48 + body.length)) (leEnc 8 0 ++ leEnc 4 0 ++ body) 28
      (by simp [magic]) (by simp)
    rw [← this, hlen]
    simp only [superblockV2, List.append_assoc]
  have e2 : putAt (putAt (superblockV2 ++ body) 28 (leEnc 8 (superblockV2 ++ body).length)) 36
      (leEnc 8 root) = superHead (48 + body.length) root ++ (leEnc 4 0 ++ body) := by
    have := putAt_append (magic ++ [2, 8, 8, 0] ++ leEnc 8 0 ++ leEnc 8 0xffffffffffffffff ++
      leEnc 8 (48 + body.length)) (leEnc 8 0) (leEnc 8 root) (leEnc 4 0 ++ body) 36
      (by simp [magic]) (by simp)
    rw [e1]
    simp only [superHead, List.append_assoc] at this ⊢
    exact this
  simp only
  rw [e2, List.take_left' (superHead_length _ _), hsum]
  simp only [Res.bind_ok, Res.pure_eq]
  have := putAt_append (superHead (48 + body.length) root) (leEnc 4 0) (leEnc 4 sum.toNat) body 44
    (superHead_length _ _) (by simp)
  rw [← List.append_assoc, this]

theorem checkMagic_app (m r : Bytes) (p n : Nat) (h : m.length = n) :
    checkMagic n m ⟨p, m ++ r⟩ = .ok ((), ⟨p + n, r⟩) := by
  simp only [checkMagic, P.bind_apply, rdN_append n p m r h, P.assert, beq_self_eq_true, if_true,
    P.pure_apply]

/-- The reader on a file that starts with a version 2 superblock. -/
theorem readSuperblock_v2 (eof root sum : Nat) (tail : Bytes) (he : eof < 2 ^ 64)
    (hr : root < 2 ^ 64) (hs : sum < 2 ^ 32)
    (hf : (superHead eof root ++ leEnc 4 sum ++ tail).length < 2 ^ 63) :
    readSuperblock (superHead eof root ++ leEnc 4 sum ++ tail) =
      if eof ≤ (superHead eof root ++ leEnc 4 sum ++ tail).length then
        (match checksum (superHead eof root) with
          | .ok h => if h.toNat = sum then .ok (root, invalidAddress) else .err .assertFail
          | .err e => .err e
          | .panic => .panic)
      else .err .truncated := by
  have hlen : (superHead eof root ++ leEnc 4 sum ++ tail).length = 48 + tail.length := by
    simp [superHead_length]; omega
  have hcs := checkChecksum_block [] (superHead eof root) tail sum hs
    (by rw [List.nil_append]; exact hf)
  rw [List.nil_append, List.length_nil, superHead_length] at hcs
  unfold readSuperblock
  rw [if_neg (by omega)]
  rw [show (48 : Int) = ((48 : Nat) : Int) from rfl,
    newSeek_block _ 0 48 hf (by omega) (by omega)]
  rw [hcs]
  have e : ((superHead eof root ++ leEnc 4 sum ++ tail).drop 0).take 48 =
      magic ++ ([2] ++ ([8] ++ ([8] ++ ([0] ++ (leEnc 8 0 ++ (leEnc 8 invalidAddress ++
        (leEnc 8 eof ++ (leEnc 8 root ++ leEnc 4 sum)))))))) := by
    rw [List.drop_zero, List.take_append_of_le_length (by simp [superHead_length]),
      List.take_of_length_le (by simp [superHead_length])]
    simp [superHead, invalidAddress]
  rw [e]
  simp only [P.bind_apply, checkMagic_app magic _ 0 8 rfl, List.singleton_append, read8_cons]
  rw [if_neg (by decide), if_pos (by decide)]
  unfold readSuperblockV23
  simp only [P.bind_apply, read8_cons, P.assert, checkVal, read64_app _ _ _ (by decide : 0 < 2 ^ 64),
    read64_app _ _ _ (by decide : invalidAddress < 2 ^ 64), read64_app _ _ _ he,
    P.pure_apply, UInt8.reduceToNat, BEq.rfl, ↓reduceIte]
  by_cases h : eof ≤ (superHead eof root ++ leEnc 4 sum ++ tail).length
  · simp only [h, decide_true, ↓reduceIte, P.pure_apply, read64_app _ _ _ hr]
    cases checksum (superHead eof root) with
    | err e => rfl
    | panic => rfl
    | ok c =>
      by_cases hc : c.toNat = sum
      · simp only [hc, ↓reduceIte, Res.map]
      · simp only [hc, ↓reduceIte, Res.map]
  · simp only [h, decide_false, ↓reduceIte, Bool.false_eq_true, P.fail]

theorem readSuperblock_not_magic (file : Bytes) (h : ¬ magic <+: file) :
    readSuperblock file = if 48 ≤ file.length then .err .badMagic else .err .corrupted := by
  unfold readSuperblock
  by_cases hl : 48 ≤ file.length
  · rw [if_neg (by omega), if_pos hl]
    have hs : newSeek file 0 48 = .ok ⟨0, file.take 48⟩ := by
      unfold newSeek
      rw [if_pos]
      · simp [i64]
      · simp only [i64, wrap64]
        simp
        omega
    rw [hs]
    have hne : ((file.take 48).take 8 == magic) = false := by
      rw [List.take_take]
      rw [beq_eq_false_iff_ne]
      intro e
      apply h
      rw [← e]
      exact List.take_prefix _ _
    simp only [P.bind_apply, checkMagic, rdN]
    rw [if_pos (by simp; omega)]
    simp only [P.assert, hne]
    rfl
  · rw [if_pos (by omega), if_neg hl]

end Verif.H5
