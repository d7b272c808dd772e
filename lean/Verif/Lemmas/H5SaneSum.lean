import Verif.Lemmas.H5Sane
import Verif.Lemmas.H5Checksum
/-!
What the checksums of an accepted file say.
-/
namespace Verif.H5.Sane
open Verif.H5

theorem rdN_ok {n : Nat} {s t : S} {b : Bytes} (h : rdN n s = .ok (b, t)) :
    n ≤ s.rem.length ∧ b = s.rem.take n ∧ t = ⟨s.pos + n, s.rem.drop n⟩ := by
  unfold rdN at h
  split at h
  · rename_i hn
    cases h
    exact ⟨hn, rfl, rfl⟩
  · cases h

theorem read8_ok {s t : S} {x : Nat} (h : read8 s = .ok (x, t)) :
    1 ≤ s.rem.length ∧ x = leDec (s.rem.take 1) ∧ t = ⟨s.pos + 1, s.rem.drop 1⟩ := by
  obtain ⟨b, u, h1, h2⟩ := P.bind_ok h
  obtain ⟨h3, h4, h5⟩ := rdN_ok h1
  cases h2
  exact ⟨h3, by rw [h4], h5⟩

theorem read32_ok {s t : S} {x : Nat} (h : read32 s = .ok (x, t)) :
    4 ≤ s.rem.length ∧ x = leDec (s.rem.take 4) := by
  obtain ⟨b, u, h1, h2⟩ := P.bind_ok h
  obtain ⟨h3, h4, h5⟩ := rdN_ok h1
  cases h2
  exact ⟨h3, by rw [h4]⟩

theorem readEnc_ok {n : Nat} {s t : S} {x : Nat} (h : readEnc n s = .ok (x, t)) :
    n ≤ s.rem.length ∧ x = leDec (s.rem.take n) := by
  unfold readEnc at h
  have key : ∀ m, (rdN m >>= fun b => (pure (leDec b) : P Nat)) s = .ok (x, t) →
      m ≤ s.rem.length ∧ x = leDec (s.rem.take m) := by
    intro m hm
    obtain ⟨b, u, h1, h2⟩ := P.bind_ok hm
    obtain ⟨h3, h4, h5⟩ := rdN_ok h1
    cases h2
    exact ⟨h3, by rw [h4]⟩
  split at h
  · rename_i e; subst e; exact key 1 h
  split at h
  · rename_i e; subst e; exact key 2 h
  split at h
  · rename_i e; subst e; exact key 4 h
  split at h
  · rename_i e; subst e; exact key 8 h
  · cases h

theorem assert_ok {b : Bool} {e : Err} {s : S} {x : Unit × S} (h : P.assert b e s = .ok x) :
    b = true ∧ x.2 = s := by
  unfold P.assert at h
  split at h
  · rename_i hb
    cases h
    exact ⟨hb, rfl⟩
  · cases h

/-- A reader that has at least one byte is at its place in the file. -/
theorem newSeek_ok {file : Bytes} {addr : Nat} {n : Nat} {s : S} (hn : 0 < n)
    (h : newSeek file addr n = .ok s) (hs : 0 < s.rem.length) : s.rem = (file.drop addr).take n := by
  unfold newSeek at h
  split at h
  · cases h
    simp only at hs ⊢
    split at hs
    · simp at hs
    · rename_i h1
      rw [if_neg h1, if_neg (by omega)]
      rfl
  · cases h

theorem stream_ok {n : Nat} {s t : S} {c : UInt32} (h : computeChecksumStream n s = .ok (c, t)) :
    n ≤ s.rem.length ∧ checksum (s.rem.take n) = .ok c ∧ t.rem = s.rem.drop n := by
  have hn : n ≤ s.rem.length := by
    unfold computeChecksumStream at h
    obtain ⟨b, u, h1, h2⟩ := P.bind_ok h
    obtain ⟨h3, h4, h5⟩ := rdN_ok h1
    by_cases hr : 0 < n % 4
    · simp only [hr, ↓reduceIte] at h2
      obtain ⟨r, v, h6, h7⟩ := P.bind_ok h2
      obtain ⟨h8, _⟩ := rdN_ok h6
      rw [h5] at h8
      simp only [List.length_drop] at h8
      omega
    · omega
  have e : s = ⟨s.pos, s.rem.take n ++ s.rem.drop n⟩ := by
    rw [List.take_append_drop]
  have hl : (s.rem.take n).length = n := by
    rw [List.length_take]
    omega
  have h' : computeChecksumStream (s.rem.take n).length ⟨s.pos, s.rem.take n ++ s.rem.drop n⟩ =
      .ok (c, t) := by
    rw [hl, ← e]
    exact h
  rw [stream_eq] at h'
  cases hc : checksum (s.rem.take n) with
  | err e => rw [hc] at h'; cases h'
  | panic => rw [hc] at h'; cases h'
  | ok d =>
    rw [hc] at h'
    cases h'
    exact ⟨hn, rfl, rfl⟩

theorem checkChecksum_intact {file : Bytes} {addr n : Nat} (hf : file.length < 2 ^ 32)
    (h : checkChecksum file addr n = .ok ()) : Intact file addr n := by
  unfold checkChecksum at h
  split at h
  · cases h
  · cases h
  · rename_i s hs
    split at h
    · rename_i u hu
      obtain ⟨c, t, h1, h2⟩ := P.bind_ok hu
      obtain ⟨x, v, h3, h4⟩ := P.bind_ok h2
      obtain ⟨e1, e2, e3⟩ := stream_ok h1
      obtain ⟨e4, e5⟩ := read32_ok h3
      obtain ⟨e6, _⟩ := assert_ok h4
      rw [e3, List.length_drop] at e4
      have hrem := newSeek_ok (n := n + 4) (by omega) (by exact_mod_cast hs) (by omega)
      have hlen : addr + n + 4 ≤ file.length := by
        have : (List.take (n + 4) (List.drop addr file)).length = s.rem.length := by rw [hrem]
        rw [List.length_take, List.length_drop] at this
        omega
      refine ⟨hlen, ?_⟩
      have t1 : s.rem.take n = (file.drop addr).take n := by
        rw [hrem, List.take_take]
        congr 1
        omega
      have t2 : (s.rem.drop n).take 4 = (file.drop (addr + n)).take 4 := by
        rw [hrem, List.drop_take, List.drop_drop, List.take_take]
        congr 1
        omega
      obtain ⟨d, d1, d2⟩ := checksum_lookup3 ((file.drop addr).take n) (by
        rw [List.length_take, List.length_drop]
        omega)
      rw [t1, d1] at e2
      cases e2
      rw [e3, t2] at e5
      rw [← e5, ← d2]
      exact (by simpa using e6 : c.toNat = x).symm
    · cases h
    · cases h

theorem leDec_one (b : Bytes) (h : 1 ≤ b.length) : leDec (b.take 1) = (b.getD 0 0).toNat := by
  cases b with
  | nil => simp at h
  | cons x xs => simp [leDec]

/-- What was read of a version 2 header, in terms of the file. -/
theorem readV2_parts {w : Task → St → Res St} {file : Bytes} {addr : Nat} (h : ReadV2 w file addr) :
    byteAt file (addr + 4) = 2 ∧ checkChecksum file addr (headerLength file addr) = .ok () ∧
      ∃ st st', seekRun file (addr + prefixLength file addr + sizeBytes file addr)
        (i64 (leDec ((file.drop (addr + prefixLength file addr)).take (sizeBytes file addr))))
        (readCommon w 2 (byteAt file (addr + 5))
          (leDec ((file.drop (addr + prefixLength file addr)).take (sizeBytes file addr))) st) =
            .ok st' := by
  obtain ⟨flags, chunk, a, n, k1, k2, k3, k4, k5, k6⟩ := h.ok
  obtain ⟨s, t, s1, s2⟩ := seekRun_ok k1
  obtain ⟨_, u1, q1, q2⟩ := P.bind_ok s2
  obtain ⟨ver, u2, q3, q4⟩ := P.bind_ok q2
  obtain ⟨_, u3, q5, q6⟩ := P.bind_ok q4
  obtain ⟨fl, u4, q7, q8⟩ := P.bind_ok q6
  obtain ⟨_, u5, q9, q10⟩ := P.bind_ok q8
  cases q10
  have c1 : 4 ≤ s.rem.length ∧ u1.rem = s.rem.drop 4 := by
    unfold checkMagic at q1
    obtain ⟨m, v, m1, m2⟩ := P.bind_ok q1
    obtain ⟨m3, m4, m5⟩ := rdN_ok m1
    have := (assert_ok m2).2
    simp only at this
    rw [this, m5]
    exact ⟨m3, rfl⟩
  obtain ⟨r1, r2, r3⟩ := read8_ok q3
  obtain ⟨r4, r5⟩ := assert_ok q5
  simp only at r5
  subst r5
  obtain ⟨r6, r7, r8⟩ := read8_ok q7
  have hrem := newSeek_ok (n := 6) (by omega) s1 (by omega)
  have hl6 : 6 ≤ file.length - addr := by
    rw [r3, List.length_drop, c1.2, List.length_drop, hrem, List.length_take, List.length_drop] at r6
    omega
  have hb : ∀ i, i < 6 → (s.rem.drop i).getD 0 0 = file.getD (addr + i) 0 := by
    intro i hi
    rw [hrem]
    simp only [List.getD_eq_getElem?_getD, List.getElem?_drop, List.getElem?_take]
    rw [if_pos (by omega)]
    simp
  have hver : byteAt file (addr + 4) = 2 := by
    rw [leDec_one _ r1, c1.2, hb 4 (by omega)] at r2
    unfold byteAt
    rw [← r2]
    exact (by simpa using r4 : 2 = ver).symm
  have hflag : byteAt file (addr + 5) = flags := by
    rw [leDec_one _ r6, r3, c1.2, List.drop_drop, hb 5 (by omega)] at r7
    exact r7.symm
  refine ⟨hver, ?_⟩
  have hpre : a = addr + prefixLength file addr := by
    rw [k2, prefixLength, hflag]
    omega
  obtain ⟨s', t', z1, z2⟩ := seekRun_ok k3
  obtain ⟨z3, z4⟩ := readEnc_ok z2
  have hpos : 0 < 2 ^ (flags % 4) := Nat.two_pow_pos _
  have hrem' := newSeek_ok hpos z1 (by omega)
  have hchunk : chunk = leDec ((file.drop (addr + prefixLength file addr)).take (sizeBytes file addr)) := by
    rw [z4, hrem', List.take_take, Nat.min_self, hpre, sizeBytes, hflag]
  have : n = headerLength file addr := by
    rw [k4, headerLength, ← hchunk, hpre, sizeBytes, hflag]
    omega
  rw [← this]
  refine ⟨k5, ?_⟩
  obtain ⟨st, st', k6⟩ := k6
  refine ⟨st, st', ?_⟩
  rw [← hchunk, ← hpre, hflag, sizeBytes, hflag]
  exact k6

theorem isMagic_ohdr {file : Bytes} {addr : Nat} (hm : (file.drop addr).take 4 = ascii "OHDR")
    (hf : file.length < 2 ^ 32) (hb : isMagic file ohdr addr ≠ .err .assertFail) :
    isMagic file ohdr addr = .ok true := by
  have h0 : addr ≠ 0 := by
    rintro rfl
    exact hb rfl
  have hlen4 : addr + 4 ≤ file.length := by
    have := congrArg List.length hm
    rw [List.length_take, List.length_drop, show (ascii "OHDR").length = 4 by decide] at this
    omega
  unfold isMagic
  rw [if_neg (by unfold invalidAddress; omega), if_neg (by omega), hm]
  decide

/-- The header of an object that was read, if it has version 2. -/
theorem walked_v2 {file : Bytes} {i : Info} (hf : file.length < 2 ^ 32) (h : Walked file i)
    (hm : (file.drop i.addr).take 4 = ascii "OHDR") : ∃ n, ReadV2 (walk file n) file i.addr := by
  obtain ⟨n, st, c, b, d, h, _, _⟩ := h
  cases n with
  | zero => cases h
  | succ n =>
    simp only [walk] at h
    have hmag := isMagic_ohdr hm hf (by intro e; rw [e] at h; cases h)
    rw [hmag] at h
    exact ⟨n, (readHeaderV2_ext (walk_true file n) _ _ h).2⟩

theorem walked_intact {file : Bytes} {i : Info} (hf : file.length < 2 ^ 32)
    (h : Walked file i) : HeaderIntact file i.addr := by
  intro hm
  obtain ⟨n, hw⟩ := walked_v2 hf h hm
  obtain ⟨h1, h2, _⟩ := readV2_parts hw
  exact ⟨h1, checkChecksum_intact hf h2⟩

/-- The superblock of versions 2 and 3. -/
theorem readSuperblock_intact {file : Bytes} (hf : file.length < 2 ^ 32) {r : Nat × Nat}
    (h : readSuperblock file = .ok r) :
    file.take 8 = magic ∧ byteAt file 8 ≤ 3 ∧ (2 ≤ byteAt file 8 → Intact file 0 44) := by
  unfold readSuperblock at h
  split at h
  · cases h
  · rename_i hlen
    split at h
    · cases h
    · cases h
    · rename_i s hs
      split at h
      · cases h
      · cases h
      · rename_i version t hv
        obtain ⟨_, u, m1, m2⟩ := P.bind_ok hv
        have c1 : s.rem.take 8 = magic ∧ 8 ≤ s.rem.length ∧ u.rem = s.rem.drop 8 := by
          unfold checkMagic at m1
          obtain ⟨m, v, n1, n2⟩ := P.bind_ok m1
          obtain ⟨n3, n4, n5⟩ := rdN_ok n1
          obtain ⟨n6, n7⟩ := assert_ok n2
          simp only at n7
          rw [n7, n5]
          rw [n4] at n6
          exact ⟨by simpa using n6, n3, rfl⟩
        obtain ⟨r1, r2, r3⟩ := read8_ok m2
        have hrem := newSeek_ok (n := 48) (by omega) hs (by omega)
        have e8 : version = byteAt file 8 := by
          rw [r2, leDec_one _ r1, c1.2.2, hrem]
          unfold byteAt
          simp only [List.getD_eq_getElem?_getD, List.getElem?_drop, List.getElem?_take]
          rw [if_pos (by omega)]
        have em : file.take 8 = magic := by
          rw [← c1.1, hrem, List.take_take]
          simp
        refine ⟨em, ?_, ?_⟩
        · split at h
          · omega
          · split at h
            · omega
            · cases h
        · intro h2
          split at h
          · omega
          · split at h
            · split at h
              · cases h
              · cases h
              · cases hc : checkChecksum file 0 44 with
                | err e => rw [hc] at h; cases h
                | panic => rw [hc] at h; cases h
                | ok _ => exact checkChecksum_intact hf hc
            · cases h

end Verif.H5.Sane
