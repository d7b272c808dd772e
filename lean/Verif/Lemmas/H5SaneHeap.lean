import Verif.Lemmas.H5SaneSum
/-!
The heaps and version 2 B-trees of an accepted file.
-/
namespace Verif.H5.Sane
open Verif.H5

variable {w : Task → St → Res St}

theorem num_ok {n : Nat} {s t : S} {x : Nat} (h : (rdN n >>= fun b => (pure (leDec b) : P Nat)) s = .ok (x, t)) :
    n ≤ s.rem.length ∧ x = leDec (s.rem.take n) ∧ t.rem = s.rem.drop n := by
  obtain ⟨b, u, h1, h2⟩ := P.bind_ok h
  obtain ⟨h3, h4, h5⟩ := rdN_ok h1
  cases h2
  exact ⟨h3, by rw [h4], by rw [h5]⟩

theorem read64s_ok {n : Nat} {s t : S} {x : List Nat} (h : read64s n s = .ok (x, t)) :
    t.rem = s.rem.drop (8 * n) := by
  induction n generalizing s x with
  | zero => cases h; rfl
  | succ n ih =>
    unfold read64s at h
    obtain ⟨b, u, h1, h2⟩ := P.bind_ok h
    obtain ⟨c, v, h3, h4⟩ := P.bind_ok h2
    cases h4
    rw [ih h3, (num_ok h1).2.2, List.drop_drop]
    congr 1
    omega

theorem magic_ok {m : Bytes} {s t : S} {x : Unit} (h : checkMagic 4 m s = .ok (x, t)) :
    4 ≤ s.rem.length ∧ s.rem.take 4 = m ∧ t.rem = s.rem.drop 4 := by
  unfold checkMagic at h
  obtain ⟨b, v, n1, n2⟩ := P.bind_ok h
  obtain ⟨n3, n4, n5⟩ := rdN_ok n1
  obtain ⟨n6, n7⟩ := assert_ok n2
  simp only at n7
  rw [n7, n5]
  rw [n4] at n6
  exact ⟨n3, by simpa using n6, rfl⟩

/-- Where the number is in the file. -/
theorem numAt_eq {file rem : Bytes} {a n k w : Nat} (h : rem = (file.drop a).take n) (hk : k + w ≤ n) :
    leDec ((rem.drop k).take w) = numAt file (a + k) w := by
  rw [h, numAt, List.drop_take, List.drop_drop, List.take_take, Nat.min_eq_left (by omega)]

theorem readIndirect_intact {file : Bytes} {h r : HeapInfo} {a n : Nat} (hf : file.length < 2 ^ 32)
    (hn : n < 2048) (hx : readIndirect file h a n = .ok r) :
    (file.drop a).take 4 = ascii "FHIB" ∧ Intact file a (13 + h.maxHeap / 8 + n * 32) := by
  unfold readIndirect at hx
  simp only at hx
  rw [Res.bind_eq_ok] at hx
  obtain ⟨as, h1, h2⟩ := hx
  rw [Res.bind_eq_ok] at h2
  obtain ⟨_, h3, _⟩ := h2
  obtain ⟨s, t, s1, s2⟩ := seekRun_ok h1
  obtain ⟨_, u, q1, q2⟩ := P.bind_ok s2
  obtain ⟨m1, m2, m3⟩ := magic_ok q1
  have hrem := newSeek_ok (n := 4 + 1 + 8 + h.maxHeap / 8 + n * 4 * 8 % 65536 + 4) (by omega)
    (by exact_mod_cast s1) (by omega)
  refine ⟨?_, ?_⟩
  · rw [hrem, List.take_take, Nat.min_eq_left (by omega)] at m2
    exact m2
  · have := checkChecksum_intact hf h3
    rw [show 4 + 1 + 8 + h.maxHeap / 8 + n * 4 * 8 % 65536 + 4 - 4 = 13 + h.maxHeap / 8 + n * 32 by omega] at this
    exact this

theorem readHeap_intact {file : Bytes} {a : Nat} {r : HeapInfo} (hf : file.length < 2 ^ 32)
    (hx : readHeap file a = .ok r) : HeapIntact file a := by
  unfold readHeap at hx
  rw [Res.bind_eq_ok] at hx
  obtain ⟨⟨blockSize, maxBlock, maxHeap, root, rows⟩, h1, h2⟩ := hx
  simp only at h2
  rw [Res.bind_eq_ok] at h2
  obtain ⟨_, h3, h4⟩ := h2
  obtain ⟨s, t, s1, s2⟩ := seekRun_ok h1
  obtain ⟨_, u1, q1, s2⟩ := P.bind_ok s2
  obtain ⟨_, u2, q2, s2⟩ := P.bind_ok s2
  obtain ⟨_, u3, q3, s2⟩ := P.bind_ok s2
  obtain ⟨_, u4, q4, s2⟩ := P.bind_ok s2
  obtain ⟨_, u5, q5, s2⟩ := P.bind_ok s2
  obtain ⟨_, u6, q6, s2⟩ := P.bind_ok s2
  obtain ⟨_, u7, q7, s2⟩ := P.bind_ok s2
  obtain ⟨_, u8, q8, s2⟩ := P.bind_ok s2
  obtain ⟨_, u9, q9, s2⟩ := P.bind_ok s2
  obtain ⟨_, u10, q10, s2⟩ := P.bind_ok s2
  obtain ⟨_, u11, q11, s2⟩ := P.bind_ok s2
  obtain ⟨_, u12, q12, s2⟩ := P.bind_ok s2
  obtain ⟨mh, u13, q13, s2⟩ := P.bind_ok s2
  obtain ⟨_, u14, q14, s2⟩ := P.bind_ok s2
  obtain ⟨_, u15, q15, s2⟩ := P.bind_ok s2
  obtain ⟨rt, u16, q16, s2⟩ := P.bind_ok s2
  obtain ⟨rw, u17, q17, s2⟩ := P.bind_ok s2
  cases s2
  obtain ⟨m1, m2, m3⟩ := magic_ok q1
  have hrem := newSeek_ok (n := 144) (by omega) s1 (by omega)
  have e2 := (num_ok q2).2.2
  have e3 := (num_ok q3).2.2
  have e4 := (num_ok q4).2.2
  have e5 := (assert_ok q5).2
  have e6 := (num_ok q6).2.2
  have e7 := (num_ok q7).2.2
  have e8 := read64s_ok q8
  have e9 := (num_ok q9).2.2
  have e10 := (assert_ok q10).2
  have e11 := (num_ok q11).2.2
  have e12 := (num_ok q12).2.2
  have e13 := (num_ok q13).2
  have e14 := (assert_ok q14).2
  have e15 := (num_ok q15).2.2
  have e16 := (num_ok q16).2
  have e17 := (num_ok q17).2
  simp only at e5 e10 e14
  have r12 : u12.rem = s.rem.drop 128 := by
    rw [e12, e11, e10, e9, e8, e7, e6, e5, e4, e3, e2, m3]
    simp only [List.drop_drop]
  have r15 : u15.rem = s.rem.drop 132 := by
    rw [e15, e14, e13.2, r12]
    simp only [List.drop_drop]
  have v13 := e13.1
  rw [r12, numAt_eq hrem (by omega)] at v13
  have v16 := e16.1
  rw [r15, numAt_eq hrem (by omega)] at v16
  have v17 := e17.1
  rw [e16.2, r15, List.drop_drop, numAt_eq hrem (by omega)] at v17
  refine ⟨?_, checkChecksum_intact hf h3, ?_⟩
  · rw [hrem, List.take_take, Nat.min_eq_left (by omega)] at m2
    exact m2
  · rw [← v13, ← v16, ← v17]
    intro hp hr
    rw [if_pos hp] at h4
    exact readIndirect_intact hf hr h4

theorem lift_rem {α : Type} {r : Res α} {s t : S} {x : α} (h : P.lift r s = .ok (x, t)) : t.rem = s.rem := by
  cases r with
  | ok a => cases h; rfl
  | err e => cases h
  | panic => cases h

theorem lift_eq {α : Type} {r : Res α} {s t : S} {x : α} (h : P.lift r s = .ok (x, t)) : r = .ok x := by
  cases r with
  | ok a => cases h; rfl
  | err e => cases h
  | panic => cases h

theorem readRecord_rem {file : Bytes} {d : Dense} {ty : Nat} {st st' : St} {s t : S}
    (h : readRecord w file d ty st s = .ok (st', t)) :
    t.rem = s.rem.drop (if ty = 5 then 11 else 17) ∧ (if ty = 5 then 11 else 17) ≤ s.rem.length := by
  unfold readRecord at h
  split at h
  · rename_i h5
    obtain ⟨_, u1, q1, h⟩ := P.bind_ok h
    obtain ⟨_, u2, q2, h⟩ := P.bind_ok h
    obtain ⟨_, u3, q3, h⟩ := P.bind_ok h
    obtain ⟨_, u4, q4, h⟩ := P.bind_ok h
    obtain ⟨_, u5, q5, h⟩ := P.bind_ok h
    have e6 := (lift_rem h)
    have e1 := num_ok q1
    have e2 := num_ok q2
    have e3 := (assert_ok q3).2
    have e4 := num_ok q4
    have e5 := num_ok q5
    simp only at e3
    rw [e3, e2.2.2, e1.2.2, List.drop_drop] at e4
    rw [e4.2.2, List.drop_drop] at e5
    rw [if_pos h5, e6, e5.2.2, List.drop_drop]
    refine ⟨rfl, ?_⟩
    have := e5.1
    have := e1.1
    rw [List.length_drop] at *
    omega
  · rename_i h5
    split at h
    · cases h
    · split at h
      · obtain ⟨_, u1, q1, h⟩ := P.bind_ok h
        obtain ⟨_, u2, q2, h⟩ := P.bind_ok h
        obtain ⟨_, u3, q3, h⟩ := P.bind_ok h
        obtain ⟨_, u4, q4, h⟩ := P.bind_ok h
        obtain ⟨_, u5, q5, h⟩ := P.bind_ok h
        obtain ⟨_, u6, q6, h⟩ := P.bind_ok h
        obtain ⟨_, u7, q7, h⟩ := P.bind_ok h
        obtain ⟨_, u8, q8, h⟩ := P.bind_ok h
        have e9 := (lift_rem h)
        have e1 := num_ok q1
        have e2 := (assert_ok q2).2
        have e3 := num_ok q3
        have e4 := num_ok q4
        have e5 := num_ok q5
        have e6 := num_ok q6
        have e7 := num_ok q7
        have e8 := num_ok q8
        simp only at e2
        rw [e2, e1.2.2] at e3
        rw [e3.2.2, List.drop_drop] at e4
        rw [e4.2.2, List.drop_drop] at e5
        rw [e5.2.2, List.drop_drop] at e6
        rw [e6.2.2, List.drop_drop] at e7
        rw [e7.2.2, List.drop_drop] at e8
        rw [if_neg h5, e9, e8.2.2, List.drop_drop]
        refine ⟨rfl, ?_⟩
        have := e8.1
        rw [List.length_drop] at this
        omega
      · cases h

theorem readRecords_rem {file : Bytes} {d : Dense} {ty : Nat} : ∀ {n : Nat} {st st' : St} {s t : S},
    readRecords w file d ty n st s = .ok (st', t) →
    t.rem = s.rem.drop (n * if ty = 5 then 11 else 17)
  | 0, st, st', s, t, h => by cases h; simp
  | n + 1, st, st', s, t, h => by
    unfold readRecords at h
    obtain ⟨_, u, h1, h⟩ := P.bind_ok h
    rw [readRecords_rem h, (readRecord_rem h1).1, List.drop_drop, Nat.add_mul, Nat.one_mul, Nat.add_comm]

theorem childLoop_each {child : Nat → Nat → St → Res St} {few deep : Bool} : ∀ {n : Nat} {st st' : St} {s t : S},
    childLoop child few deep n st s = .ok (st', t) → ∀ i < n, ∃ st1 st2,
      i * (9 + if deep then 2 else 0) + 9 ≤ s.rem.length ∧
      child (leDec ((s.rem.drop (i * (9 + if deep then 2 else 0))).take 8))
        (leDec ((s.rem.drop (i * (9 + if deep then 2 else 0) + 8)).take 1)) st1 = .ok st2
  | 0, st, st', s, t, h => by simp
  | n + 1, st, st', s, t, h => by
    unfold childLoop at h
    obtain ⟨a, u1, h1, h⟩ := P.bind_ok h
    obtain ⟨_, u2, h2, h⟩ := P.bind_ok h
    obtain ⟨m, u3, h3, h⟩ := P.bind_ok h
    obtain ⟨st2, u4, h4, h⟩ := P.bind_ok h
    obtain ⟨_, u5, h5, h⟩ := P.bind_ok h
    have e1 := num_ok h1
    have e2 := (assert_ok h2).2
    have e3 := num_ok h3
    simp only at e2
    rw [e2, e1.2.2] at e3
    have e4 := lift_rem h4
    have e5 : u5.rem = s.rem.drop (9 + if deep then 2 else 0) ∧ (9 + if deep then 2 else 0) ≤ s.rem.length := by
      have l3 := e3.1
      rw [List.length_drop] at l3
      unfold readTotal at h5
      cases deep with
      | false =>
        cases h5
        rw [e4, e3.2.2, List.drop_drop]
        exact ⟨rfl, by simp only [Bool.false_eq_true, if_false]; omega⟩
      | true =>
        simp only [if_true] at h5
        obtain ⟨_, u6, h6, h7⟩ := P.bind_ok h5
        cases h7
        have e6 := num_ok h6
        have l6 := e6.1
        rw [e4, e3.2.2, List.drop_drop, List.length_drop] at l6
        rw [e6.2.2, e4, e3.2.2, List.drop_drop, List.drop_drop]
        exact ⟨rfl, by simp only [if_true]; omega⟩
    intro i hi
    cases i with
    | zero =>
      refine ⟨st, st2, ?_, ?_⟩
      · have := e5.2
        rw [Nat.zero_mul]
        omega
      · rw [Nat.zero_mul, List.drop_zero, Nat.zero_add, ← e1.2.1, ← e3.2.1]
        exact lift_eq h4
    | succ i =>
      obtain ⟨s1, s2, l, hc⟩ := childLoop_each h i (by omega)
      rw [e5.1, List.length_drop] at l
      rw [e5.1, List.drop_drop, List.drop_drop] at hc
      generalize hS : (9 + if deep then 2 else 0) = step at *
      have hm : (i + 1) * step = step + i * step := by rw [Nat.add_mul, Nat.one_mul, Nat.add_comm]
      refine ⟨s1, s2, ?_, ?_⟩
      · rw [hm]
        have := e5.2
        omega
      · rw [hm, Nat.add_assoc]
        exact hc

theorem readNode_intact {file : Bytes} {d : Dense} {ns rs : Nat} (hf : file.length < 2 ^ 32) (hrs : rs < 2 ^ 16) :
    ∀ {depth a n : Nat} {st st' : St}, readNode w file d ns rs depth a n st = .ok st' → NodesIntact file rs depth a n
  | 0, a, n, st, st', hx => by
    unfold NodesIntact
    intro hn
    have hlt : n * rs < 2 ^ 56 := by
      calc n * rs ≤ n * 2 ^ 16 := Nat.mul_le_mul_left _ (by omega)
        _ < 2 ^ 40 * 2 ^ 16 := Nat.mul_lt_mul_of_pos_right hn (by omega)
        _ = 2 ^ 56 := by decide
    have hwrap : ∀ x : Nat, x < 2 ^ 63 → wrap64 x = x := by
      intro x hx
      unfold wrap64
      omega
    have hnb : wrap64 (6 + wrap64 (i64 n * rs)) = ((6 + n * rs : Nat) : Int) := by
      have h1 : i64 n = n := by unfold i64; rw [if_pos (by omega)]
      rw [h1, show (n : Int) * rs = ((n * rs : Nat) : Int) by push_cast; rfl, hwrap _ (by omega),
        show (6 : Int) + ((n * rs : Nat) : Int) = ((6 + n * rs : Nat) : Int) by push_cast; rfl, hwrap _ (by omega)]
    unfold readNode readLeafNode at hx
    simp only [hnb] at hx
    rw [Res.bind_eq_ok] at hx
    obtain ⟨st1, h1, h2⟩ := hx
    rw [Res.bind_eq_ok] at h2
    obtain ⟨_, h3, _⟩ := h2
    obtain ⟨s, t, s1, s2⟩ := seekRun_ok h1
    obtain ⟨_, u, q1, q2⟩ := P.bind_ok s2
    obtain ⟨m1, m2, m3⟩ := magic_ok q1
    have hrem := newSeek_ok (n := 6 + n * rs) (by omega) s1 (by omega)
    refine ⟨?_, checkChecksum_intact hf h3⟩
    rw [hrem, List.take_take, Nat.min_eq_left (by omega)] at m2
    exact m2
  | depth + 1, a, n, st, st', hx => by
    unfold readNode at hx
    simp only at hx
    rw [Res.bind_eq_ok] at hx
    obtain ⟨st1, h1, h2⟩ := hx
    rw [Res.bind_eq_ok] at h2
    obtain ⟨_, h3, _⟩ := h2
    obtain ⟨s, t, s1, s2⟩ := seekRun_ok h1
    obtain ⟨_, u, q1, q2⟩ := P.bind_ok s2
    obtain ⟨_, u2, q3, q2⟩ := P.bind_ok q2
    obtain ⟨_, u3, q4, q2⟩ := P.bind_ok q2
    obtain ⟨ty, u4, q5, q2⟩ := P.bind_ok q2
    obtain ⟨st5, u5, q6, q2⟩ := P.bind_ok q2
    obtain ⟨m1, m2, m3⟩ := magic_ok q1
    simp only [decide_eq_true_eq] at s1 h3
    have hrem := newSeek_ok (by omega) s1 (by omega)
    have e3 := num_ok q3
    have e4 := (assert_ok q4).2
    have e5 := num_ok q5
    simp only at e4
    rw [e4, e3.2.2, m3, List.drop_drop] at e5
    have hty : ty = numAt file (a + 5) 1 := by
      rw [e5.2.1, numAt_eq hrem (by omega)]
    have e6 := readRecords_rem q6
    rw [e5.2.2, List.drop_drop, List.drop_drop, hty, show (if numAt file (a + 5) 1 = 5 then 11 else 17) = recordLength file a from rfl,
      show 4 + 1 + (1 + n * recordLength file a) = 6 + n * recordLength file a by omega] at e6
    unfold NodesIntact
    refine ⟨?_, checkChecksum_intact hf h3, ?_⟩
    · rw [hrem, List.take_take, Nat.min_eq_left (by omega)] at m2
      exact m2
    · intro i hi
      obtain ⟨st6, st7, l, hc⟩ := childLoop_each q2 i (by omega)
      simp only [decide_eq_true_eq] at l hc
      rw [e6, List.length_drop] at l
      rw [e6, List.drop_drop, List.drop_drop] at hc
      have hl : s.rem.length ≤ 6 + n * rs + (n + 1) * (9 + if 0 < depth then 2 else 0) := by
        rw [hrem, List.length_take]
        omega
      rw [numAt_eq hrem (by omega), numAt_eq hrem (by omega)] at hc
      have := readNode_intact hf hrs hc
      rw [← Nat.add_assoc (6 + _)] at this
      exact this

theorem leDec_lt2 (b : Bytes) : leDec (b.take 2) < 2 ^ 16 := by
  have := leDec_lt (b.take 2)
  refine Nat.lt_of_lt_of_le this ?_
  calc 256 ^ (b.take 2).length ≤ 256 ^ 2 := Nat.pow_le_pow_right (by omega) (by rw [List.length_take]; omega)
    _ = 2 ^ 16 := by decide

theorem readBTree2_intact {file : Bytes} {d : Dense} {a : Nat} {st st' : St} (hf : file.length < 2 ^ 32)
    (hx : readBTree2 w file d a st = .ok st') : TreeIntact file a := by
  unfold readBTree2 at hx
  rw [Res.bind_eq_ok] at hx
  obtain ⟨⟨ns, rs, depth, root, rr, total⟩, h1, h2⟩ := hx
  simp only at h2
  rw [Res.bind_eq_ok] at h2
  obtain ⟨_, h3, h4⟩ := h2
  obtain ⟨s, t, s1, s2⟩ := seekRun_ok h1
  obtain ⟨_, u1, q1, s2⟩ := P.bind_ok s2
  obtain ⟨_, u2, q2, s2⟩ := P.bind_ok s2
  obtain ⟨_, u3, q3, s2⟩ := P.bind_ok s2
  obtain ⟨_, u4, q4, s2⟩ := P.bind_ok s2
  obtain ⟨_, u5, q5, s2⟩ := P.bind_ok s2
  obtain ⟨_, u6, q6, s2⟩ := P.bind_ok s2
  obtain ⟨_, u7, q7, s2⟩ := P.bind_ok s2
  obtain ⟨_, u8, q8, s2⟩ := P.bind_ok s2
  obtain ⟨_, u9, q9, s2⟩ := P.bind_ok s2
  obtain ⟨_, u10, q10, s2⟩ := P.bind_ok s2
  obtain ⟨_, u11, q11, s2⟩ := P.bind_ok s2
  obtain ⟨_, u12, q12, s2⟩ := P.bind_ok s2
  cases s2
  obtain ⟨m1, m2, m3⟩ := magic_ok q1
  have hrem := newSeek_ok (n := 36) (by omega) s1 (by omega)
  have e2 := (num_ok q2).2.2
  have e3 := (assert_ok q3).2
  have e4 := (num_ok q4).2.2
  have e5 := (num_ok q5).2.2
  have e6 := (num_ok q6).2
  have e7 := (num_ok q7).2
  have e8 := (num_ok q8).2.2
  have e9 := (num_ok q9).2.2
  have e10 := (num_ok q10).2
  have e11 := (num_ok q11).2
  have e12 := (num_ok q12).2
  simp only at e3
  have r5 : u5.rem = s.rem.drop 10 := by
    rw [e5, e4, e3, e2, m3]
    simp only [List.drop_drop]
  have r9 : u9.rem = s.rem.drop 16 := by
    rw [e9, e8, e7.2, e6.2, r5]
    simp only [List.drop_drop]
  have v6 := e6.1
  have hrs := leDec_lt2 u5.rem
  rw [← v6] at hrs
  rw [r5, numAt_eq hrem (by omega)] at v6
  have v7 := e7.1
  rw [e6.2, r5, List.drop_drop, numAt_eq hrem (by omega)] at v7
  have v10 := e10.1
  rw [r9, numAt_eq hrem (by omega)] at v10
  have v11 := e11.1
  rw [e10.2, r9, List.drop_drop, numAt_eq hrem (by omega)] at v11
  have v12 := e12.1
  rw [e11.2, e10.2, r9, List.drop_drop, List.drop_drop, numAt_eq hrem (by omega)] at v12
  have k := readNode_intact hf hrs h4
  refine ⟨?_, checkChecksum_intact hf h3, ?_⟩
  · rw [hrem, List.take_take, Nat.min_eq_left (by omega)] at m2
    exact m2
  · rw [← v6, ← v7, ← v10, ← v11, ← v12]
    exact k

theorem walked_heaps {file : Bytes} {i : Info} (hf : file.length < 2 ^ 32)
    (h : Walked file i) : HeapsIntact file i := by
  obtain ⟨n, st, c, b, d, h1, h2, rfl⟩ := h
  have hd := dumpObject_ext (walk_true file n) h2
  intro heap tree hor hne
  rw [hd.link, hd.attr] at hor
  unfold dumpObject at h2
  have hheap : (hasHeap c.info.attr || hasHeap c.info.link) = true := by
    rcases hor with e | e <;> simp only at e <;> simp [e, hasHeap, invalidAddress, hne]
  rw [if_pos hheap] at h2
  cases n with
  | zero => cases h2
  | succ n =>
    simp only [walk, readDense] at h2
    rw [Res.bind_eq_ok] at h2
    obtain ⟨⟨st1, ha⟩, h3, h4⟩ := h2
    unfold readDenseAttrs at h3
    rcases hor with e | e <;> simp only at e
    · have hl : st1.info.link = some (heap, tree) := by
        split at h3
        · cases h3; exact e
        · split at h3
          · rw [Res.bind_eq_ok] at h3
            obtain ⟨hi, _, h5⟩ := h3
            rw [Res.bind_eq_ok] at h5
            obtain ⟨st2, h6, h7⟩ := h5
            cases h7
            rw [(readBTree2_ext (walk_true file n) _ _ _ h6).link]
            exact e
          · cases h3; exact e
      simp only [readDenseLinks, hl] at h4
      rw [if_pos (by simpa [invalidAddress] using hne), Res.bind_eq_ok] at h4
      obtain ⟨hi, h5, h6⟩ := h4
      exact ⟨readHeap_intact hf h5, readBTree2_intact hf h6⟩
    · simp only [e] at h3
      rw [if_pos (by simpa [invalidAddress] using hne), Res.bind_eq_ok] at h3
      obtain ⟨hi, h5, h6⟩ := h3
      rw [Res.bind_eq_ok] at h6
      obtain ⟨st2, h7, _⟩ := h6
      exact ⟨readHeap_intact hf h5, readBTree2_intact hf h7⟩

end Verif.H5.Sane
