import Verif.Lemmas.H5Symtab
/-!
The reader on fractal heaps laid out as in `Spec/H5Dense`.
-/
namespace Verif.H5
open Fmt

theorem Parses.read8' {b : Bytes} (h : b.length = 1) : Parses H5.read8 b (leDec b) := fun q rest _ => by
  simp only [H5.read8, P.bind_apply, rdN_append 1 q b rest h, P.pure_apply, h]

theorem Parses.read16' {b : Bytes} (h : b.length = 2) : Parses H5.read16 b (leDec b) := fun q rest _ => by
  simp only [H5.read16, P.bind_apply, rdN_append 2 q b rest h, P.pure_apply, h]

theorem Parses.read32' {b : Bytes} (h : b.length = 4) : Parses H5.read32 b (leDec b) := fun q rest _ => by
  simp only [H5.read32, P.bind_apply, rdN_append 4 q b rest h, P.pure_apply, h]

theorem Parses.read64' {b : Bytes} (h : b.length = 8) : Parses H5.read64 b (leDec b) := fun q rest _ => by
  simp only [H5.read64, P.bind_apply, rdN_append 8 q b rest h, P.pure_apply, h]

theorem block_length (b : Bytes) : (block b).length = b.length + 4 := by
  simp [block, num_eq]

theorem block_ne (b : Bytes) : block b ≠ [] := by
  intro h
  have := congrArg List.length h
  rw [block_length] at this
  simp at this

/-- The checksum of a block is accepted. -/
theorem checksum_at {file b : Bytes} {a n : Nat} (h : At file a (block b)) (hn : b.length = n)
    (hf : file.length < 2 ^ 63) (hb : b.length < 2 ^ 32) : checkChecksum file a n = .ok () := by
  obtain ⟨sum, hs, hsum⟩ := checksum_lookup3 b hb
  have hsn : (Lookup3.hash b).toNat = sum.toNat := by rw [← hsum]; rfl
  obtain ⟨pre, post, rfl, rfl⟩ := h.split (block_ne b)
  subst hn
  have e : pre ++ block b ++ post = pre ++ b ++ leEnc 4 sum.toNat ++ post := by
    simp [block, num_eq, hsn]
  rw [e] at hf ⊢
  rw [checkChecksum_block pre b post sum.toNat sum.toNat_lt hf, hs]
  simp

theorem At.block {file b : Bytes} {a : Nat} (h : At file a (block b)) : At file a b := by
  unfold Fmt.block at h
  exact h.app.1

theorem goLog2_pow (n : Nat) : goLog2 (2 ^ n) = n := by
  unfold goLog2
  rw [if_neg (by have := Nat.two_pow_pos n; omega), Nat.log2_two_pow]

/-- The parameters of a heap as the reader keeps them. -/
def heapInfo (a b bits : Nat) (addrs : List Nat) : HeapInfo :=
  ⟨2 ^ a, 2 ^ b, bits, addrs.take (4 * (b - a + 2)), addrs.drop (4 * (b - a + 2))⟩

theorem maxRowsDirect_eq (a b bits : Nat) (hab : a ≤ b) (x y : List Nat) :
    HeapInfo.maxRowsDirect ⟨2 ^ a, 2 ^ b, bits, x, y⟩ = ((b - a + 2 : Nat) : Int) := by
  simp only [HeapInfo.maxRowsDirect, goLog2_pow]
  omega

theorem readIndirect_ok {file : Bytes} (hf : file.length < 2 ^ 63) (a b bits n tbl header offset : Nat)
    (addrs : List Nat) (x y : List Nat) (hab : a ≤ b) (hbits : bits = 32 ∨ bits = 40) (hn : n < 2048)
    (hl : addrs.length = 4 * n) (ha : ∀ z ∈ addrs, z < 2 ^ 64)
    (hat : At file tbl (block (fhib bits header offset addrs))) :
    readIndirect file ⟨2 ^ a, 2 ^ b, bits, x, y⟩ tbl n = .ok (heapInfo a b bits addrs) := by
  have hlen : (fhib bits header offset addrs).length = 4 + 1 + 8 + bits / 8 + n * 4 * 8 := by
    simp only [fhib, num_eq, List.length_append, leEnc_length, leEnc8_flatMap_length, List.length_cons,
      List.length_nil, hl]
    omega
  have hr := maxRowsDirect_eq a b bits hab x y
  unfold readIndirect
  simp only [hr]
  have hmod : n * 4 * 8 % 65536 = n * 4 * 8 := Nat.mod_eq_of_lt (by omega)
  rw [hmod]
  have hcr : ¬ (((b - a + 2 : Nat) : Int) < 0 ∧ ((b - a + 2 : Nat) : Int) + 65536 ≤ n) := by omega
  simp only [hcr, if_false]
  have hbl := block_length (fhib bits header offset addrs)
  rw [hlen] at hbl
  have h8 : ∀ m, (leEnc 8 m).length = 8 := fun m => leEnc_length 8 m
  have hp : Parses (do
      checkMagic 4 fhibSig
      let v ← read8
      checkVal 0 v
      let _ ← read64
      let _ ← read32
      if bits = 40 then do
        let _ ← read8
        pure ()
      else pure ()
      read64s (n * 4)) (fhib bits header offset addrs) addrs := by
    simp only [fhib, num_eq, List.append_assoc]
    refine PL.bind (Parses.magic rfl) ?_
    refine PL.bind (Parses.read8 (by omega)) ?_
    refine PL.skip (checkVal_ok rfl) ?_
    refine PL.bind (Parses.read64' (leEnc_length ..)) ?_
    have hs : Parses (read64s (n * 4)) (addrs.flatMap (leEnc 8)) addrs := by
      rw [show n * 4 = addrs.length by omega]
      exact Parses.read64s ha
    rcases hbits with rfl | rfl
    · exact PL.bind (Parses.read32' (leEnc_length ..)) hs
    · have h5 : leEnc (40 / 8) offset = (leEnc 5 offset).take 4 ++ (leEnc 5 offset).drop 4 :=
        (List.take_append_drop 4 _).symm
      rw [h5, List.append_assoc]
      refine PL.bind (Parses.read32' (by simp)) ?_
      exact PL.bind (Parses.read8' (by simp)) hs
  have e1 := seekRun_parses (c := num 4 (Lookup3.hash (fhib bits header offset addrs)).toNat) hat hbl hf
    (by omega) hp
  have e2 := checksum_at hat hlen hf (by omega)
  rw [e1]
  simp only [Res.bind_ok, Nat.add_sub_cancel, e2]
  rfl

theorem readHeap_ok {file : Bytes} (hf : file.length < 2 ^ 63) (addr a b bits : Nat) (addrs : List Nat)
    (hbits : bits = 32 ∨ bits = 40) (h : HeapAt file addr a b bits addrs) :
    readHeap file addr = .ok (heapInfo a b bits addrs) ∧ a ≤ b ∧ b ≤ bits ∧
      ∃ n, addrs.length ≤ 4 * n ∧ rowStart a n ≤ 2 ^ 42 := by
  unfold HeapAt at h
  obtain ⟨idLen, flags, maxSize, nums, startRows, root, rows, h1, h2, h3, h4, h5, h6, h7, h8, h9, hat, hr⟩ := h
  have hb40 : b ≤ 40 := by omega
  have hpb : 2 ^ b ≤ 2 ^ 40 := Nat.pow_le_pow_right (by omega) hb40
  have hpa : 2 ^ a ≤ 2 ^ b := Nat.pow_le_pow_right (by omega) h8
  have hrows : rows < 2048 := by
    rcases hr with ⟨h, _⟩ | ⟨h0, h, _⟩
    · omega
    · unfold rowStart at h
      rw [if_neg (by omega)] at h
      have e : 4 * 2 ^ (a + (rows - 1)) = 2 ^ (a + rows + 1) := by
        rw [show a + rows + 1 = a + (rows - 1) + 1 + 1 by omega, Nat.pow_succ, Nat.pow_succ]
        omega
      rw [e] at h
      have := (Nat.pow_le_pow_iff_right (by omega : 1 < 2)).mp h
      omega
  have hlen : (frhp idLen flags maxSize nums a b bits startRows root rows).length = 142 := by
    simp only [frhp, num_eq, List.length_append, leEnc_length, leEnc8_flatMap_length, List.length_cons,
      List.length_nil, h4]
  have hp : Parses (do
      checkMagic 4 frhpSig
      let _ ← read8
      let _ ← read16
      let filterLen ← read16
      checkVal 0 filterLen
      let _ ← read8
      let _ ← read32
      let _ ← read64s 12
      let width ← read16
      checkVal 4 width
      let blockSize ← read64
      let maxBlock ← read64
      let maxHeap ← read16
      P.assert (maxHeap == 32 || maxHeap == 40) .assertFail
      let _ ← read16
      let root ← read64
      let rows ← read16
      pure (blockSize, maxBlock, maxHeap, root, rows))
      (frhp idLen flags maxSize nums a b bits startRows root rows) (2 ^ a, 2 ^ b, bits, root, rows) := by
    simp only [frhp, num_eq, List.append_assoc]
    refine PL.bind (Parses.magic rfl) ?_
    refine PL.bind (Parses.read8 (by omega)) ?_
    refine PL.bind (Parses.read16 h1) ?_
    refine PL.bind (Parses.read16 (by omega)) ?_
    refine PL.skip (checkVal_ok rfl) ?_
    refine PL.bind (Parses.read8 h2) ?_
    refine PL.bind (Parses.read32 h3) ?_
    refine PL.bind (by rw [← h4]; exact Parses.read64s h5) ?_
    refine PL.bind (Parses.read16 (by omega)) ?_
    refine PL.skip (checkVal_ok rfl) ?_
    refine PL.bind (Parses.read64 (by omega)) ?_
    refine PL.bind (Parses.read64 (by omega)) ?_
    refine PL.bind (Parses.read16 (by omega)) ?_
    refine PL.skip (P.assert_ok _ (by rcases hbits with rfl | rfl <;> rfl)) ?_
    refine PL.bind (Parses.read16 h6) ?_
    refine PL.bind (Parses.read64 h7) ?_
    refine PL.map (Parses.read16 (by omega)) ?_
    intro s
    rfl
  have hat2 : At file addr (frhp idLen flags maxSize nums a b bits startRows root rows ++
      (num 4 (Lookup3.hash (frhp idLen flags maxSize nums a b bits startRows root rows)).toNat).take 2) := by
    refine (At.app (c := (num 4 (Lookup3.hash
      (frhp idLen flags maxSize nums a b bits startRows root rows)).toNat).drop 2) ?_).1
    rw [List.append_assoc, List.take_append_drop]
    exact hat
  have hl2 : (frhp idLen flags maxSize nums a b bits startRows root rows ++
      (num 4 (Lookup3.hash (frhp idLen flags maxSize nums a b bits startRows root rows)).toNat).take 2).length
      = 144 := by
    rw [List.length_append, hlen]
    simp [num_eq]
  have e1 := seekRun_parses hat2 hl2 hf (by omega) hp
  rw [show ((144 : Nat) : Int) = 144 from rfl] at e1
  have e2 := checksum_at hat hlen hf (by omega)
  unfold readHeap
  rw [e1]
  simp only [Res.bind_ok, e2]
  rcases hr with ⟨rfl, rfl⟩ | ⟨h0, hrs, hl, ha, header, offset, hi⟩
  · refine ⟨?_, h8, h9, 1, by simp, ?_⟩
    · rw [if_neg (by omega)]
      simp only [heapInfo]
      rw [List.take_of_length_le (by simp only [List.length_cons, List.length_nil]; omega),
        List.drop_eq_nil_of_le (by simp only [List.length_cons, List.length_nil]; omega)]
      rfl
    · simp only [rowStart]
      rw [if_neg (by omega)]
      simp only [Nat.sub_self, Nat.add_zero]
      omega
  · refine ⟨?_, h8, h9, rows, by omega, ?_⟩
    · rw [if_pos h0]
      exact readIndirect_ok hf a b bits rows root header offset addrs [] [] h8 hbits hrows hl ha hi
    · have : 2 ^ bits ≤ 2 ^ 40 := by rcases hbits with rfl | rfl <;> decide
      omega

/-! ### The doubling table -/

theorem rowSize_pos (a r : Nat) : 0 < rowSize a r := Nat.two_pow_pos _

theorem rowStart_succ (a r : Nat) : rowStart a (r + 1) = rowStart a r + 4 * rowSize a r := by
  unfold rowStart rowSize
  rw [if_neg (by omega)]
  by_cases h : r = 0
  · subst h; simp
  · rw [if_neg h, show a + (r + 1 - 1) = (a + (r - 1)) + 1 by omega, Nat.pow_succ]
    omega

theorem entryStart_succ (a e : Nat) : entryStart a (e + 1) = entryStart a e + rowSize a (e / 4) := by
  unfold entryStart
  by_cases h : e % 4 = 3
  · rw [show (e + 1) / 4 = e / 4 + 1 by omega, show (e + 1) % 4 = 0 by omega, h, rowStart_succ]
    omega
  · rw [show (e + 1) / 4 = e / 4 by omega, show (e + 1) % 4 = e % 4 + 1 by omega, Nat.add_mul]
    omega

theorem entryStart_mono (a : Nat) {e e' : Nat} (h : e ≤ e') : entryStart a e ≤ entryStart a e' := by
  induction e' with
  | zero => simp [show e = 0 by omega]
  | succ n ih =>
    by_cases he : e = n + 1
    · rw [he]; omega
    · have := ih (by omega)
      rw [entryStart_succ]
      omega

theorem rowSize_mono (a : Nat) {r r' : Nat} (h : r ≤ r') : rowSize a r ≤ rowSize a r' :=
  Nat.pow_le_pow_right (by omega) (by omega)

theorem rowSize_le_start (a e : Nat) (h : 4 ≤ e) : rowSize a (e / 4) ≤ entryStart a e := by
  unfold entryStart rowStart rowSize
  rw [if_neg (by omega)]
  omega

theorem rowSize_succ (a r : Nat) (h : 1 ≤ r) : rowSize a (r + 1) = rowSize a r * 2 := by
  unfold rowSize
  rw [show a + (r + 1 - 1) = (a + (r - 1)) + 1 by omega, Nat.pow_succ]

theorem sub64_le {x y : Nat} (h : y ≤ x) (hx : x < 2 ^ 64) : sub64 x y = x - y := by
  unfold sub64
  omega

/-- The rows up to `b - a + 1` are those of direct blocks. -/
theorem rowSize_direct {a b r : Nat} (hab : a ≤ b) : rowSize a r ≤ 2 ^ b ↔ r < b - a + 2 := by
  unfold rowSize
  rw [Nat.pow_le_pow_iff_right (by omega)]
  omega

/-- Entries before the one with the offset are passed over. -/
theorem scanDirect_skip (a b : Nat) (hab : a ≤ b) (hb : b ≤ 40) (bs : List Nat) (x j : Nat)
    (hj : j ≤ bs.length) (hD : j ≤ 4 * (b - a + 2)) (hx : entryStart a j ≤ x) (hx2 : x < 2 ^ 42) :
    scanDirect (2 ^ b) bs 0 x (2 ^ a) =
      scanDirect (2 ^ b) (bs.drop j) j (x - entryStart a j) (min (rowSize a (j / 4)) (2 ^ b)) := by
  induction j with
  | zero =>
    have : 2 ^ a ≤ 2 ^ b := Nat.pow_le_pow_right (by omega) hab
    simp [entryStart, rowStart, rowSize, Nat.min_eq_left this]
  | succ j ih =>
    have hpb : 2 ^ b ≤ 2 ^ 40 := Nat.pow_le_pow_right (by omega) hb
    rw [entryStart_succ] at hx ⊢
    rw [ih (by omega) (by omega) (by omega)]
    have hd : rowSize a (j / 4) ≤ 2 ^ b := (rowSize_direct hab).mpr (by omega)
    rw [Nat.min_eq_left hd, List.drop_eq_getElem_cons (by omega : j < bs.length), scanDirect,
      if_neg (by omega), sub64_le (by omega) (by omega),
      show x - entryStart a j - rowSize a (j / 4) = x - (entryStart a j + rowSize a (j / 4)) by omega]
    dsimp only
    congr 1
    by_cases h3 : j % 4 = 3
    · rw [show (j + 1) / 4 = j / 4 + 1 by omega]
      by_cases h1 : 1 ≤ j / 4
      · rw [rowSize_succ a _ h1]
        by_cases h2 : rowSize a (j / 4) < 2 ^ b
        · rw [if_pos ⟨h1, h3, h2⟩, Nat.mod_eq_of_lt (by omega)]
          have : rowSize a (j / 4 + 1) ≤ 2 ^ b := by
            unfold rowSize at h2 ⊢
            have := (Nat.pow_lt_pow_iff_right (by omega : 1 < 2)).mp h2
            exact Nat.pow_le_pow_right (by omega) (by omega)
          rw [rowSize_succ a _ h1] at this
          exact (Nat.min_eq_left this).symm
        · rw [if_neg (by omega)]
          omega
      · rw [if_neg (by omega), show j / 4 = 0 by omega]
        rw [show j / 4 = 0 by omega] at hd
        exact (Nat.min_eq_left hd).symm
    · rw [if_neg (by omega), show (j + 1) / 4 = j / 4 by omega]
      exact (Nat.min_eq_left hd).symm

theorem scanIndirect_skip (a D : Nat) (hD : 8 ≤ D) (hD4 : D % 4 = 0) (bs : List Nat) (x j : Nat)
    (hj : j ≤ bs.length) (hx : entryStart a (D + j) ≤ x) (hx2 : x < 2 ^ 42) :
    scanIndirect bs 0 (x - entryStart a D) (rowSize a (D / 4)) =
      scanIndirect (bs.drop j) j (x - entryStart a (D + j)) (rowSize a ((D + j) / 4)) := by
  induction j with
  | zero => rfl
  | succ j ih =>
    rw [show D + (j + 1) = (D + j) + 1 by omega] at hx ⊢
    have hle := rowSize_le_start a (D + j) (by omega)
    rw [entryStart_succ] at hx ⊢
    rw [ih (by omega) (by omega)]
    rw [List.drop_eq_getElem_cons (by omega : j < bs.length), scanIndirect,
      if_neg (by omega), sub64_le (by omega) (by omega), Nat.sub_sub]
    dsimp only
    congr 1
    by_cases h3 : j % 4 = 3
    · rw [if_pos h3, show (D + j + 1) / 4 = (D + j) / 4 + 1 by omega, rowSize_succ a _ (by omega)]
      exact Nat.mod_eq_of_lt (by omega)
    · rw [if_neg h3, show (D + j + 1) / 4 = (D + j) / 4 by omega]

/-- The block with an offset is found. -/
theorem locate_ok {file : Bytes} (hf : file.length < 2 ^ 63) {a b bits : Nat} (hab : a ≤ b) (hbb : b ≤ 40)
    (hbits : bits = 32 ∨ bits = 40) {addrs : List Nat} {x blk o : Nat}
    (h : Located file a b bits addrs x blk o) (n : Nat) (hn : addrs.length ≤ 4 * n)
    (hs : rowStart a n ≤ 2 ^ 42) :
    ∃ N, ∀ fuel, N ≤ fuel → locate file fuel (heapInfo a b bits addrs) x = .ok (blk, o) := by
  have hbound : ∀ {e x : Nat} {n : Nat} {addrs : List Nat}, e < addrs.length → addrs.length ≤ 4 * n →
      rowStart a n ≤ 2 ^ 42 → x < entryStart a e + rowSize a (e / 4) → x < 2 ^ 42 := by
    intro e x n addrs he hn hs hx
    have h1 := entryStart_mono a (show e + 1 ≤ 4 * n by omega)
    have h2 : entryStart a (4 * n) = rowStart a n := by
      unfold entryStart
      rw [show 4 * n / 4 = n by omega, show 4 * n % 4 = 0 by omega]
      omega
    rw [entryStart_succ, h2] at h1
    omega
  have hinv : undefAddr = invalidAddress := rfl
  induction h generalizing n with
  | @direct addrs x e blk he hb hd h1 h2 =>
    refine ⟨1, fun fuel hfuel => ?_⟩
    obtain ⟨fuel, rfl⟩ : ∃ f, fuel = f + 1 := ⟨fuel - 1, by omega⟩
    obtain ⟨hlt, hee⟩ := List.getElem?_eq_some_iff.mp he
    have hx := hbound hlt hn hs h2
    have hrow := (rowSize_direct hab).mp hd
    have hD : e < 4 * (b - a + 2) := by omega
    have hsk := scanDirect_skip a b hab hbb (addrs.take (4 * (b - a + 2))) x e
      (by rw [List.length_take]; omega) (by omega) h1 hx
    have hlt' : e < (addrs.take (4 * (b - a + 2))).length := by rw [List.length_take]; omega
    rw [Nat.min_eq_left hd, List.drop_eq_getElem_cons hlt', scanDirect, List.getElem_take, hee,
      if_pos ⟨by omega, hb⟩] at hsk
    simp only [locate, heapInfo, hsk]
  | @indirect addrs addrs' x e tbl blk o m header offset he hb hd h1 h2 hm hl ha hat h ih =>
    obtain ⟨hlt, hee⟩ := List.getElem?_eq_some_iff.mp he
    have hx := hbound hlt hn hs h2
    have hrow : b - a + 2 ≤ e / 4 := by
      have : ¬ (e / 4 < b - a + 2) := fun h => by
        have := (rowSize_direct (r := e / 4) hab).mpr h
        omega
      omega
    have hle := rowSize_le_start a e (by omega)
    have hm0 : m ≠ 0 := by
      rintro rfl
      have := rowSize_pos a (e / 4)
      simp only [rowStart, ↓reduceIte] at hm
      omega
    have hme : m + 2 = e / 4 := by
      unfold rowStart rowSize at hm
      rw [if_neg hm0] at hm
      have e1 : 4 * 2 ^ (a + (m - 1)) = 2 ^ (a + m + 1) := by
        rw [show a + m + 1 = a + (m - 1) + 1 + 1 by omega, Nat.pow_succ, Nat.pow_succ]
        omega
      rw [e1] at hm
      have := (Nat.pow_right_inj (by omega : 1 < 2)).mp hm
      omega
    have hm42 : m < 2048 := by
      have h4 : rowSize a (e / 4) < 2 ^ 42 := by omega
      unfold rowSize at h4
      have := (Nat.pow_lt_pow_iff_right (by omega : 1 < 2)).mp h4
      omega
    obtain ⟨N, hN⟩ := ih m (by omega) (by omega)
    refine ⟨N + 1, fun fuel hfuel => ?_⟩
    obtain ⟨fuel, rfl⟩ : ∃ f, fuel = f + 1 := ⟨fuel - 1, by omega⟩
    have hD : 4 * (b - a + 2) ≤ e := by omega
    have hstart := entryStart_mono a hD
    have htl : (addrs.take (4 * (b - a + 2))).length = 4 * (b - a + 2) := by
      rw [List.length_take]; omega
    have hsk := scanDirect_skip a b hab hbb (addrs.take (4 * (b - a + 2))) x (4 * (b - a + 2))
      (by omega) (by omega) (by omega) hx
    rw [List.drop_eq_nil_of_le (by omega), scanDirect] at hsk
    have hsz : min (rowSize a (4 * (b - a + 2) / 4)) (2 ^ b) = 2 ^ b := by
      have : 2 ^ b < rowSize a (4 * (b - a + 2) / 4) := by
        have : ¬ (rowSize a (4 * (b - a + 2) / 4) ≤ 2 ^ b) := fun h => by
          have := (rowSize_direct hab).mp h
          omega
        omega
      omega
    rw [hsz] at hsk
    have hb1 : 2 ^ b * 2 % 2 ^ 64 = rowSize a (4 * (b - a + 2) / 4) := by
      have hpb : 2 ^ b ≤ 2 ^ 40 := Nat.pow_le_pow_right (by omega) hbb
      rw [Nat.mod_eq_of_lt (by omega)]
      unfold rowSize
      rw [show a + (4 * (b - a + 2) / 4 - 1) = b + 1 by omega, Nat.pow_succ]
    have hlt2 : e - 4 * (b - a + 2) < (addrs.drop (4 * (b - a + 2))).length := by
      rw [List.length_drop]; omega
    have hsi := scanIndirect_skip a (4 * (b - a + 2)) (by omega) (by omega) (addrs.drop (4 * (b - a + 2))) x
      (e - 4 * (b - a + 2)) (by omega) (by rw [show 4 * (b - a + 2) + (e - 4 * (b - a + 2)) = e by omega]; exact h1) hx
    rw [show 4 * (b - a + 2) + (e - 4 * (b - a + 2)) = e by omega, List.drop_eq_getElem_cons hlt2, scanIndirect,
      List.getElem_drop] at hsi
    simp only [show 4 * (b - a + 2) + (e - 4 * (b - a + 2)) = e by omega, hee] at hsi
    rw [if_pos ⟨by omega, hb⟩] at hsi
    have hrows : ((goLog2 (rowSize a (e / 4)) - goLog2 (2 ^ a * 4 % 2 ^ 64) + 1) % 65536).toNat = m := by
      have hpa : 2 ^ a ≤ 2 ^ 40 := Nat.pow_le_pow_right (by omega) (by omega)
      rw [Nat.mod_eq_of_lt (by omega), show 2 ^ a * 4 = 2 ^ (a + 2) by rw [Nat.pow_add]]
      unfold rowSize
      rw [goLog2_pow, goLog2_pow]
      omega
    have hri := readIndirect_ok hf a b bits m tbl header offset addrs' (addrs.take (4 * (b - a + 2)))
      (addrs.drop (4 * (b - a + 2))) hab hbits hm42 hl ha hat
    simp only [locate, heapInfo, hsk, hb1, hsi, hrows, hri, Res.bind_ok]
    exact hN fuel (by omega)

end Verif.H5
