import Verif.Model.H5Checksum
import Verif.Spec.Lookup3
import Verif.Lemmas.H5Base
/-!
The two checksum functions agree and compute lookup3.
-/
namespace Verif.H5

/-- The words of a byte string, the last one filled up with zeros. -/
def allWords (data : Bytes) : List UInt32 :=
  wordsOf (data.length / 4) data ++
    (if 0 < data.length % 4 then
      [leWord (data.drop (data.length - data.length % 4) ++
        List.replicate (4 - data.length % 4) 0)] else [])

theorem wordsOf_eq_range (n : Nat) (b : Bytes) :
    (List.range n).map (fun i => leWord (b.drop (i * 4))) = wordsOf n b := by
  induction n generalizing b with
  | zero => rfl
  | succ n ih =>
    rw [List.range_succ_eq_map, List.map_cons, List.map_map, wordsOf]
    simp only [Nat.zero_mul, List.drop_zero, List.cons.injEq, true_and]
    rw [← ih]
    apply List.map_congr_left
    intro i _
    simp only [Function.comp_apply, List.drop_drop]
    congr 2
    omega

theorem wordsOf_take (n : Nat) (b : Bytes) (m : Nat) (h : 4 * n ≤ m) :
    wordsOf n (b.take m) = wordsOf n b := by
  induction n generalizing b m with
  | zero => rfl
  | succ n ih =>
    rw [wordsOf, wordsOf, List.drop_take, ih _ _ (by omega)]
    unfold leWord
    rw [List.take_take, Nat.min_eq_left (by omega)]

theorem checksum_eq (data : Bytes) :
    checksum data = hashInts (allWords data) (UInt32.ofNat data.length) := by
  unfold checksum allWords
  simp only [wordsOf_eq_range]

theorem stream_eq (data r : Bytes) (p : Nat) :
    computeChecksumStream data.length ⟨p, data ++ r⟩ =
      match checksum data with
      | .ok h => .ok (h, ⟨p + data.length, r⟩)
      | .err e => .err e
      | .panic => .panic := by
  rw [checksum_eq]
  unfold computeChecksumStream allWords
  have hsplit : data ++ r = data.take (4 * (data.length / 4)) ++
      (data.drop (4 * (data.length / 4)) ++ r) := by
    rw [← List.append_assoc, List.take_append_drop]
  have hl : (data.take (4 * (data.length / 4))).length = 4 * (data.length / 4) := by
    rw [List.length_take]; omega
  have hl2 : (data.drop (4 * (data.length / 4))).length = data.length % 4 := by
    rw [List.length_drop]; omega
  rw [hsplit, P.bind_apply, rdN_append _ _ _ _ hl]
  simp only
  rw [wordsOf_take _ _ _ (Nat.le_refl _)]
  by_cases h : 0 < data.length % 4
  · rw [if_pos h, if_pos h, P.bind_apply, rdN_append _ _ _ _ hl2]
    simp only [P.bind_apply, P.pure_apply, P.lift]
    have e : data.length - data.length % 4 = 4 * (data.length / 4) := by omega
    have e2 : p + 4 * (data.length / 4) + data.length % 4 = p + data.length := by omega
    rw [e, e2]
    cases hashInts _ _ <;> rfl
  · rw [if_neg h, if_neg h, P.bind_apply]
    simp only [P.pure_apply, P.lift, List.append_nil]
    have e : data.drop (4 * (data.length / 4)) = [] := by
      apply List.eq_nil_of_length_eq_zero; omega
    have e2 : p + 4 * (data.length / 4) = p + data.length := by omega
    rw [e, e2, List.nil_append]
    cases hashInts _ _ <;> rfl

/-! ### lookup3 -/

theorem rot_eq (x : UInt32) (k : Nat) (h : 0 < k) (h2 : k < 32) :
    (rot x (UInt32.ofNat k)).toBitVec = x.toBitVec.rotateLeft k := by
  unfold rot
  rw [UInt32.toBitVec_or, UInt32.toBitVec_shiftLeft, UInt32.toBitVec_shiftRight]
  rw [UInt32.toBitVec_sub]
  have e1 : (UInt32.ofNat k).toBitVec = BitVec.ofNat 32 k := rfl
  have e3 : (32 : UInt32).toBitVec = BitVec.ofNat 32 32 := rfl
  rw [e1, e3]
  have hk : (BitVec.ofNat 32 k) % 32 = BitVec.ofNat 32 k := by
    apply BitVec.eq_of_toNat_eq
    simp
    omega
  have hk2 : (BitVec.ofNat 32 32 - BitVec.ofNat 32 k) % 32 = BitVec.ofNat 32 (32 - k) := by
    apply BitVec.eq_of_toNat_eq
    simp
    omega
  rw [hk, hk2, BitVec.rotateLeft_def]
  rw [BitVec.shiftLeft_eq', BitVec.ushiftRight_eq']
  simp
  have : k % 4294967296 = k := by omega
  have h4 : k % 32 = k := by omega
  have h5 : (32 - k) % 4294967296 = 32 - k := by omega
  rw [this, h4, h5]

/-- The state of the loop as bit vectors. -/
def bvs (s : UInt32 × UInt32 × UInt32) : Lookup3.State :=
  (s.1.toBitVec, s.2.1.toBitVec, s.2.2.toBitVec)

theorem mix_eq (s : UInt32 × UInt32 × UInt32) : bvs (mix s) = Lookup3.mixing (bvs s) := by
  obtain ⟨a, b, c⟩ := s
  have r4 := fun x => rot_eq x 4 (by omega) (by omega)
  have r6 := fun x => rot_eq x 6 (by omega) (by omega)
  have r8 := fun x => rot_eq x 8 (by omega) (by omega)
  have r16 := fun x => rot_eq x 16 (by omega) (by omega)
  have r19 := fun x => rot_eq x 19 (by omega) (by omega)
  simp only [UInt32.reduceOfNat] at r4 r6 r8 r16 r19
  simp only [mix, bvs, Lookup3.mixing, List.foldl, Lookup3.mixRound, UInt32.toBitVec_add,
    UInt32.toBitVec_sub, UInt32.toBitVec_xor, r4, r6, r8, r16, r19]

theorem final_eq (s : UInt32 × UInt32 × UInt32) :
    (final s).toBitVec = Lookup3.finishing (bvs s) := by
  obtain ⟨a, b, c⟩ := s
  have r14 := fun x => rot_eq x 14 (by omega) (by omega)
  have r11 := fun x => rot_eq x 11 (by omega) (by omega)
  have r25 := fun x => rot_eq x 25 (by omega) (by omega)
  have r16 := fun x => rot_eq x 16 (by omega) (by omega)
  have r4 := fun x => rot_eq x 4 (by omega) (by omega)
  have r24 := fun x => rot_eq x 24 (by omega) (by omega)
  simp only [UInt32.reduceOfNat] at r14 r11 r25 r16 r4 r24
  simp only [final, bvs, Lookup3.finishing, List.foldl, Lookup3.finalRound,
    UInt32.toBitVec_sub, UInt32.toBitVec_xor, r14, r11, r25, r16, r4, r24]

theorem leWord_bv (b : Bytes) : (leWord b).toBitVec = BitVec.ofNat 32 (leDec (b.take 4)) := rfl

theorem leWord_take (b : Bytes) (m : Nat) (h : 4 ≤ m) : leWord (b.take m) = leWord b := by
  unfold leWord
  rw [List.take_take, Nat.min_eq_left h]

theorem leDec_zeros (n : Nat) : leDec (List.replicate n 0) = 0 := by
  induction n with
  | zero => rfl
  | succ n ih => simp [List.replicate_succ, leDec, ih]

theorem allWords_short (d : Bytes) (h : d.length < 4) (h0 : 0 < d.length) :
    allWords d = [leWord (d ++ List.replicate (4 - d.length) 0)] := by
  unfold allWords
  have h1 : d.length / 4 = 0 := by omega
  have h2 : d.length % 4 = d.length := by omega
  rw [h1, h2, if_pos h0, Nat.sub_self]
  rfl

theorem allWords_step (d : Bytes) (h : 4 ≤ d.length) :
    allWords d = leWord d :: allWords (d.drop 4) := by
  unfold allWords
  have h1 : d.length / 4 = (d.drop 4).length / 4 + 1 := by rw [List.length_drop]; omega
  have h2 : d.length % 4 = (d.drop 4).length % 4 := by rw [List.length_drop]; omega
  rw [h1, wordsOf, List.cons_append, h2]
  congr 2
  have e : d.length - (d.drop 4).length % 4 =
      4 + ((d.drop 4).length - (d.drop 4).length % 4) := by
    rw [List.length_drop]; omega
  rw [e, ← List.drop_drop]

theorem word_pad (d : Bytes) (m : Nat) (i : Nat) :
    Lookup3.word (d ++ List.replicate m 0) i = BitVec.ofNat 32 (leDec ((d.drop (4 * i)).take 4)) := by
  unfold Lookup3.word
  congr 1
  rw [List.drop_append, List.drop_replicate, List.take_append, List.take_replicate]
  have key : ∀ (a : Bytes) n, leDec (a ++ List.replicate n 0) = leDec a := by
    intro a n
    induction a with
    | nil => rw [List.nil_append, leDec_zeros]; rfl
    | cons x xs ih => simp [leDec, ih]
  rw [key]

theorem leWord_pad (d : Bytes) (m : Nat) :
    (leWord (d ++ List.replicate m 0)).toBitVec = BitVec.ofNat 32 (leDec (d.take 4)) := by
  have := word_pad d m 0
  simp only [Lookup3.word, Nat.mul_zero, List.drop_zero] at this
  exact this

/-- The loop on the words is the specification on the bytes. -/
theorem hashLoop_eq (d : Bytes) (a b c : UInt32) :
    ∃ r, hashLoop d.length a b c (allWords d) = .ok r ∧
      r.toBitVec = Lookup3.run (bvs (a, b, c)) d := by
  generalize hn : d.length = n
  induction n using Nat.strongRecOn generalizing d a b c with
  | _ n ih =>
    subst hn
    by_cases h12 : 12 < d.length
    · rw [hashLoop.eq_def, if_pos h12, Lookup3.run, if_pos h12]
      rw [allWords_step d (by omega), allWords_step (d.drop 4) (by simp; omega),
        allWords_step ((d.drop 4).drop 4) (by simp; omega)]
      simp only [List.drop_drop]
      obtain ⟨r, hr, hr2⟩ := ih (d.drop 12).length (by simp; omega) (d.drop 12)
        (mix (a + leWord d, b + leWord (d.drop 4), c + leWord (d.drop 8))).1
        (mix (a + leWord d, b + leWord (d.drop 4), c + leWord (d.drop 8))).2.1
        (mix (a + leWord d, b + leWord (d.drop 4), c + leWord (d.drop 8))).2.2 rfl
      rw [List.length_drop] at hr
      refine ⟨r, hr, ?_⟩
      rw [hr2]
      congr 1
      rw [show ∀ s, bvs (s.1, s.2.1, s.2.2) = bvs s from fun _ => rfl, mix_eq]
      congr 1
      unfold Lookup3.addBlock Lookup3.word bvs
      simp only [UInt32.toBitVec_add, leWord_bv, List.drop_take, List.take_take]
      simp
    · rw [Lookup3.run, if_neg h12]
      rw [hashLoop.eq_def, if_neg h12]
      by_cases h0 : d.length = 0
      · rw [if_pos h0, if_neg (by omega), if_neg (by omega), if_neg (by omega)]
        exact ⟨c, rfl, rfl⟩
      · rw [if_neg h0]
        have hz : ∀ k, d.length ≤ k → leDec ((d.drop k).take 4) = 0 := by
          intro k hk
          rw [List.drop_eq_nil_of_le hk]; rfl
        -- the words of the block
        have hw : ∀ k, k < d.length → ∃ w rest, allWords (d.drop k) = w :: rest ∧
            rest = (if k + 4 < d.length then allWords (d.drop (k + 4)) else []) ∧
            w.toBitVec = BitVec.ofNat 32 (leDec ((d.drop k).take 4)) := by
          intro k hk
          by_cases h4 : 4 ≤ (d.drop k).length
          · refine ⟨_, _, allWords_step _ h4, ?_, rfl⟩
            rw [List.drop_drop]
            split
            · rfl
            · rename_i hh
              rw [List.drop_eq_nil_of_le (by omega)]
              rfl
          · refine ⟨_, [], allWords_short _ (by omega) (by simp; omega), ?_, leWord_pad _ _⟩
            rw [if_neg (by rw [List.length_drop] at h4; omega)]
        obtain ⟨w0, r0, e0, er0, v0⟩ := hw 0 (by omega)
        rw [List.drop_zero] at e0 v0
        unfold Lookup3.addBlock
        rw [word_pad, word_pad, word_pad]
        simp only [Nat.mul_zero, List.drop_zero, Nat.mul_one]
        by_cases h9 : 9 ≤ d.length
        · rw [if_pos h9]
          obtain ⟨w1, r1, e1, er1, v1⟩ := hw 4 (by omega)
          obtain ⟨w2, r2, e2, er2, v2⟩ := hw 8 (by omega)
          rw [if_pos (by omega), Nat.zero_add, e1] at er0
          rw [if_pos (by omega)] at er1
          rw [e0, er0, er1, e2]
          refine ⟨_, rfl, ?_⟩
          rw [final_eq]
          simp only [bvs, UInt32.toBitVec_add, v0, v1, v2]
        · rw [if_neg h9]
          by_cases h5 : 5 ≤ d.length
          · rw [if_pos h5]
            obtain ⟨w1, r1, e1, er1, v1⟩ := hw 4 (by omega)
            rw [if_pos (by omega), Nat.zero_add, e1] at er0
            rw [e0, er0]
            refine ⟨_, rfl, ?_⟩
            rw [final_eq]
            simp only [bvs, UInt32.toBitVec_add, v0, v1]
            rw [hz 8 (by omega)]
            simp
          · rw [if_neg h5, if_pos (by omega), e0]
            refine ⟨_, rfl, ?_⟩
            rw [final_eq]
            simp only [bvs, UInt32.toBitVec_add, v0]
            rw [hz 8 (by omega), hz 4 (by omega)]
            simp

theorem checksum_lookup3 (data : Bytes) (h : data.length < 2 ^ 32) :
    ∃ r, checksum data = .ok r ∧ r.toBitVec = Lookup3.hash data := by
  rw [checksum_eq]
  unfold hashInts
  have e : (UInt32.ofNat data.length).toNat = data.length := by
    rw [UInt32.toNat_ofNat']; omega
  have e2 : (if UInt32.ofNat data.length = 0 then UInt32.ofNat (4 * (allWords data).length)
      else UInt32.ofNat data.length) = UInt32.ofNat data.length := by
    split
    · rename_i h0
      have : data.length = 0 := by
        have := congrArg UInt32.toNat h0
        rw [e] at this
        simpa using this
      have hd : data = [] := List.eq_nil_of_length_eq_zero this
      subst hd
      rfl
    · rfl
  simp only
  rw [e2, e]
  obtain ⟨r, hr, hr2⟩ := hashLoop_eq data (0xdeadbeef + UInt32.ofNat data.length)
    (0xdeadbeef + UInt32.ofNat data.length) (0xdeadbeef + UInt32.ofNat data.length)
  exact ⟨r, hr, hr2⟩

end Verif.H5
