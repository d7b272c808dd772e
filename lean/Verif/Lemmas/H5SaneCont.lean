import Verif.Lemmas.H5SaneSum
/-!
The blocks where version 2 object headers of an accepted file go on.
-/
namespace Verif.H5.Sane
open Verif.H5

variable {w : Task → St → Res St}

theorem Stored.bytes_length (tracked : Bool) (m : Stored) :
    (m.bytes tracked).length = 4 + (if tracked then 2 else 0) + m.data.length := by
  cases tracked <;> simp [Stored.bytes] <;> omega

theorem readHead_stored (tracked : Bool) (m : Stored) (rest : Bytes) (p C flags : Nat) (hm : m.OK)
    (hC : p + (m.bytes tracked).length ≤ C) (hfl : (flags / 4 % 2 == 1) = tracked) :
    readHead 2 flags C ⟨p, m.bytes tracked ++ rest⟩ =
      .ok (if m.data = [] then .next else .msg m.ty m.data.length,
        ⟨p + (4 + if tracked then 2 else 0), m.data ++ rest⟩) := by
  obtain ⟨hty, hl, hf, ho⟩ := hm
  rw [Stored.bytes_length] at hC
  have hz : (m.data.length = 0 ∧ 1 < 2) = (m.data = []) := by
    simp [List.length_eq_zero_iff]
  have h21 : (2 = 1) = False := by simp
  have h12 : (1 < 2) = True := by simp
  have e2 : (decide (2 ≠ 1) || decide (m.data.length ≤ (m.data ++ rest).length)) = true := by simp
  have e1 : ¬ (p + 1 + 2 = C) := by omega
  cases tracked with
  | false =>
    have hfl' : ¬ (flags / 4 % 2 = 1) := by simpa using hfl
    have e3 : decide (m.data.length ≤ C - (p + 1 + 2 + 1)) = true := by
      simp only [decide_eq_true_eq]; simp at hC; omega
    simp only [Stored.bytes, Bool.false_eq_true, ↓reduceIte, List.append_assoc, List.nil_append]
    simp only [readHead, h21, ↓reduceIte, P.bind_apply, read8_app _ _ _ hty, read16_app _ _ _ hl,
      and_false, count, e1, read8_app _ _ _ hf, P.pure_apply, remLen_apply, hfl', false_and, hz, h12,
      and_true, e2, e3, P.assert_true]
    by_cases hd : m.data = []
    · simp only [hd, List.length_nil, ↓reduceIte, P.pure_apply]
    · have hl : ¬ (m.data.length = 0) := by simpa using hd
      simp only [hd, hl, ↓reduceIte, P.bind_apply, remLen_apply, e2, P.assert_true, count, h12, e3,
        P.pure_apply]
  | true =>
    have hfl' : flags / 4 % 2 = 1 := by simpa using hfl
    have e3 : decide (m.data.length ≤ C - (p + 1 + 2 + 1 + 2)) = true := by
      simp only [decide_eq_true_eq]; simp at hC; omega
    have e4 : ∀ x : Bytes, ¬ ((leEnc 2 m.order ++ x).length < 2) := by
      intro x; simp only [List.length_append, leEnc_length]; omega
    simp only [Stored.bytes, ↓reduceIte, List.append_assoc]
    simp only [readHead, h21, ↓reduceIte, P.bind_apply, read8_app _ _ _ hty, read16_app _ _ _ hl,
      and_false, count, e1, read8_app _ _ _ hf, P.pure_apply, remLen_apply, hfl', e4, hz, h12,
      and_true, read16_app _ _ _ ho]
    by_cases hd : m.data = []
    · simp only [hd, List.length_nil, ↓reduceIte, P.pure_apply]
    · have hl : ¬ (m.data.length = 0) := by simpa using hd
      simp only [hd, hl, ↓reduceIte, P.bind_apply, remLen_apply, e2, P.assert_true, count, h12, e3,
        P.pure_apply]

/-- The messages before the last one are passed over, the last one says where the header goes on, and
the reader went there. -/
theorem msgLoop_cont {flags C : Nat} {tracked : Bool} (hfl : (flags / 4 % 2 == 1) = tracked)
    {m : Stored} {off size : Nat} (mok : m.OK) (ty : m.ty = 16)
    (data : m.data = leEnc 8 off ++ leEnc 8 size) (hoff : off < 2 ^ 64) (hsize : size < 2 ^ 64)
    (rest : Bytes) (t : S) (st' : St) :
    ∀ (before : List Stored) (_ : ∀ x ∈ before, x.OK) (fuel p : Nat) (st : St)
      (_ : p + ((before ++ [m]).flatMap (Stored.bytes tracked)).length ≤ C)
      (_ : msgLoop w 2 flags C fuel st ⟨p, (before ++ [m]).flatMap (Stored.bytes tracked) ++ rest⟩ =
        .ok (st', t)), ∃ st1 st2, w (.cont off size 2 flags) st1 = .ok st2 := by
  intro before
  induction before with
  | nil =>
    intro _ fuel p st hC h
    cases fuel with
    | zero => cases h
    | succ fuel =>
      simp only [List.nil_append, List.flatMap_cons, List.flatMap_nil, List.append_nil] at hC h
      have h3 : ¬ ((m.bytes tracked ++ rest).length < 3) := by
        rw [List.length_append, Stored.bytes_length]; omega
      have hd : m.data ≠ [] := by
        rw [data]; intro e; have := congrArg List.length e; simp at this
      simp only [msgLoop, P.bind_apply, remLen_apply, h3, ↓reduceIte,
        readHead_stored tracked m rest p C flags mok hC hfl, hd] at h
      obtain ⟨st1, v, h5, h6⟩ := P.bind_ok h
      have h16 : ∀ size, handle w 2 flags 16 size st = (do
        let offset ← read64
        let csize ← read64
        P.lift (w (.cont offset csize 2 flags) st)) := fun _ => rfl
      simp only [msgSub, or_true, ↓reduceIte, List.take_left, ty, h16] at h5
      have e : leEnc 8 off ++ leEnc 8 size = leEnc 8 off ++ (leEnc 8 size ++ []) := by simp
      rw [data, e] at h5
      simp only [P.bind_apply, read64_app _ _ _ hoff, read64_app _ _ _ hsize, P.lift] at h5
      cases hw : w (.cont off size 2 flags) st with
      | ok st2 => exact ⟨st, st2, hw⟩
      | err e => rw [hw] at h5; cases h5
      | panic => rw [hw] at h5; cases h5
  | cons x before ih =>
    intro hok fuel p st hC h
    cases fuel with
    | zero => cases h
    | succ fuel =>
      simp only [List.cons_append, List.flatMap_cons, List.append_assoc, List.length_append] at hC h
      have hl := Stored.bytes_length tracked x
      have hx := hok x (by simp)
      have h3 : ¬ ((x.bytes tracked ++ ((before ++ [m]).flatMap (Stored.bytes tracked) ++ rest)).length < 3) := by
        rw [List.length_append, Stored.bytes_length]; omega
      simp only [msgLoop, P.bind_apply, remLen_apply, h3, ↓reduceIte,
        readHead_stored tracked x _ p C flags hx (by omega) hfl] at h
      by_cases hd : x.data = []
      · simp only [hd, ↓reduceIte, List.nil_append] at h
        exact ih (fun y hy => hok y (by simp [hy])) fuel _ st (by rw [hd] at hl; simp at hl; omega) h
      · simp only [hd, ↓reduceIte] at h
        obtain ⟨st1, v, h5, h6⟩ := P.bind_ok h
        simp only [msgSub, or_true, ↓reduceIte, List.take_left, List.drop_left] at h5
        split at h5
        · split at h5
          · cases h5
            exact ih (fun y hy => hok y (by simp [hy])) fuel _ _ (by omega) h6
          · cases h5
        · cases h5
        · cases h5

/-- The same for a block that the reader has read. -/
theorem readCommon_cont {flags C : Nat} {file : Bytes} {start off size : Nat} {s t : S} {st st' : St}
    {before : List Stored} {m : Stored} {tracked : Bool} (hfl : (flags / 4 % 2 == 1) = tracked)
    (ok : ∀ x ∈ before, x.OK) (mok : m.OK) (ty : m.ty = 16)
    (data : m.data = leEnc 8 off ++ leEnc 8 size) (hoff : off < 2 ^ 64) (hsize : size < 2 ^ 64)
    (fits : ((before ++ [m]).flatMap (Stored.bytes tracked)).length ≤ C)
    (stored : (file.drop start).take ((before ++ [m]).flatMap (Stored.bytes tracked)).length =
        (before ++ [m]).flatMap (Stored.bytes tracked))
    (hs : s.rem.take C = (file.drop start).take C)
    (h : readCommon w 2 flags C st s = .ok (st', t)) :
    ∃ st1 st2, w (.cont off size 2 flags) st1 = .ok st2 := by
  unfold readCommon sub at h
  split at h
  · rename_i a u hu
    obtain ⟨r, v, h1, h2⟩ := P.bind_ok hu
    rw [remLen_apply] at h1
    cases h1
    have e : s.rem.take C = (before ++ [m]).flatMap (Stored.bytes tracked) ++
        (s.rem.take C).drop ((before ++ [m]).flatMap (Stored.bytes tracked)).length := by
      have h1 : (s.rem.take C).take ((before ++ [m]).flatMap (Stored.bytes tracked)).length =
          (before ++ [m]).flatMap (Stored.bytes tracked) := by
        rw [hs, List.take_take, Nat.min_eq_left fits, stored]
      have h2 := (List.take_append_drop
        ((before ++ [m]).flatMap (Stored.bytes tracked)).length (s.rem.take C)).symm
      rw [h1] at h2
      exact h2
    rw [e] at h2
    exact msgLoop_cont hfl mok ty data hoff hsize _ _ _ before ok _ 0 _ (by omega) h2
  · cases h
  · cases h

/-- A block where the header goes on was read: it is intact, and its messages were read. -/
theorem readCont_parts {file : Bytes} {off size flags : Nat} {st st' : St}
    (hsize : size < 2 ^ 64) (h : readCont w file off size 2 flags st = .ok st') :
    (file.drop off).take 4 = ascii "OCHK" ∧ 4 ≤ size ∧
      checkChecksum file off (size - 4) = .ok () ∧
      ∃ s t st1 st2, s.rem = ((file.drop off).take size).drop 4 ∧
        readCommon w 2 flags (size - 8) st1 s = .ok (st2, t) := by
  unfold readCont at h
  split at h
  · cases h
  · cases h
  · rename_i s hs
    split at h
    · cases h
    · cases h
    · rename_i st1 t ht
      simp only [show 1 < 2 by omega, ↓reduceIte] at ht h
      obtain ⟨_, u, h1, h2⟩ := P.bind_ok ht
      obtain ⟨st2, v, h3, h4⟩ := P.bind_ok h2
      obtain ⟨b, u1, m1, m2⟩ := P.bind_ok h1
      obtain ⟨m3, m4, m5⟩ := rdN_ok m1
      obtain ⟨m6, m7⟩ := assert_ok m2
      simp only at m7
      split at h
      · cases h
      · rename_i h0
        have hc : checkChecksum file off (size - 4) = .ok () := by
          cases hc : checkChecksum file off (size - 4) with
          | ok _ => rfl
          | err e => rw [hc] at h; cases h
          | panic => rw [hc] at h; cases h
        have hrem : s.rem = (file.drop off).take size := by
          unfold newSeek at hs
          split at hs
          · cases hs
            simp only at m3 ⊢
            split at m3
            · simp at m3
            · rename_i hneg
              rw [if_neg hneg]
              have hz : i64 size ≠ 0 := by
                unfold i64
                split <;> omega
              rw [if_neg hz] at m3 ⊢
              unfold i64 at m3 ⊢
              split at m3
              · rename_i hlt
                rw [if_pos hlt]
                rfl
              · rw [Int.toNat_of_nonpos (by omega)] at m3
                simp at m3
          · cases hs
        have h4 : 4 ≤ size := by
          rw [hrem, List.length_take] at m3
          omega
        refine ⟨?_, ?_, hc, u, v, _, _, ?_, h3⟩
        · rw [m4, hrem, List.take_take, Nat.min_eq_left h4] at m6
          rw [show ascii "OCHK" = ochk by decide]
          simpa using m6
        · exact h4
        · rw [m7, m5, hrem]

theorem continues_walked {file : Bytes} {flags : Nat} {tracked : Bool}
    (hfl : (flags / 4 % 2 == 1) = tracked) {start len off size : Nat}
    (h : Continues file tracked start len off size) (n : Nat) {s t : S} {st st' : St}
    (hs : s.rem.take len = (file.drop start).take len)
    (hr : readCommon (walk file n) 2 flags len st s = .ok (st', t)) :
    size < 2 ^ 64 ∧ ∃ k st1 st2, readCont (walk file k) file off size 2 flags st1 = .ok st2 := by
  induction h generalizing n s t st st' with
  | here start len off size before m ok mok ty data hoff hsize fits stored =>
    obtain ⟨st1, st2, hw⟩ := readCommon_cont hfl ok mok ty data hoff hsize fits stored hs hr
    refine ⟨hsize, ?_⟩
    cases n with
    | zero => cases hw
    | succ k => exact ⟨k, st1, st2, hw⟩
  | next start len off size off' size' _ _ ih1 ih2 =>
    obtain ⟨hsize, k, st1, st2, h1⟩ := ih1 n hs hr
    obtain ⟨_, _, _, s', t', st3, st4, h2, h3⟩ := readCont_parts hsize h1
    refine ih2 k ?_ h3
    rw [h2, List.drop_take, List.drop_drop, List.take_take]
    congr 1
    omega

theorem walked_continuations {file : Bytes} {i : Info} (hf : file.length < 2 ^ 32)
    (h : Walked file i) : ContinuationsIntact file i.addr := by
  intro hm off size hc
  obtain ⟨n, hw⟩ := walked_v2 hf h hm
  obtain ⟨_, hck, st1, st2, h1⟩ := readV2_parts hw
  generalize i.addr = addr at *
  obtain ⟨s, t, h2, h3⟩ := seekRun_ok h1
  have hlen := (checkChecksum_intact hf hck).1
  unfold headerLength at hlen
  have hs : s.rem.take (leDec ((file.drop (addr + prefixLength file addr)).take
      (sizeBytes file addr))) = (file.drop (addr + prefixLength file addr + sizeBytes file addr)).take
        (leDec ((file.drop (addr + prefixLength file addr)).take (sizeBytes file addr))) := by
    generalize leDec ((file.drop (addr + prefixLength file addr)).take (sizeBytes file addr)) = len at *
    by_cases h0 : len = 0
    · simp [h0]
    · unfold newSeek at h2
      have i1 : i64 len = len := by unfold i64; rw [if_pos (by omega)]
      have i2 : ∀ a, a < 2 ^ 63 → ¬ (i64 a < 0) := by
        intro a ha; unfold i64; rw [if_pos ha]; omega
      split at h2
      · cases h2
        simp only
        rw [if_neg (i2 _ (by omega)), i1, if_neg (by omega)]
        simp [List.take_take]
      · cases h2
  obtain ⟨hsize, k, st3, st4, h4⟩ := continues_walked rfl hc n hs h3
  obtain ⟨r1, r2, r3, _⟩ := readCont_parts hsize h4
  exact ⟨r1, r2, checkChecksum_intact hf r3⟩

end Verif.H5.Sane
