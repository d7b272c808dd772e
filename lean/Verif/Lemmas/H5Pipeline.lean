import Verif.Spec.H5Pipeline
import Verif.Lemmas.H5Array
import Verif.Lemmas.H5Filters
import Verif.Props.H5Filters
/-!
The filters of a chunk are undone.
-/
namespace Verif.H5

theorem fletcherAll_ok (b : Bytes) (h1 : (beWords b).sum = 0 ∨ (beWords b).sum % 65535 ≠ 0)
    (h2 : sumOfSums 0 (beWords b) = 0 ∨ sumOfSums 0 (beWords b) % 65535 ≠ 0) :
    fletcherAll (b ++ leEnc 4 (h5Fletcher32 b)) (b ++ leEnc 4 (h5Fletcher32 b)).length = .ok b := by
  have hl : (b ++ leEnc 4 (h5Fletcher32 b)).length = b.length + 4 := by simp
  have hlt : h5Fletcher32 b < 256 ^ 4 := by
    unfold h5Fletcher32
    have : ∀ x, fold16 x < 65536 := by
      intro x
      unfold fold16
      split
      · decide
      · omega
    have a := this (sumOfSums 0 (beWords b))
    have b := this (beWords b).sum
    omega
  have hs := (read_step [] b (leEnc 4 (h5Fletcher32 b)) ⟨b ++ leEnc 4 (h5Fletcher32 b), b.length + 4, 0, 0, 0, 0, none⟩
    ⟨by simp, by simp, rfl, ⟨[], [], rfl, rfl, rfl, Or.inl rfl⟩, rfl⟩ b.length b.length).2 (by omega) (by simp)
  obtain ⟨fl', hr, -⟩ := hs.1 (by
    rw [List.nil_append, codeSum_eq_h5 b h1 h2, List.take_of_length_le (by simp), leDec_leEnc_of_lt hlt])
  unfold fletcherAll fletcher32Reader
  rw [hl, if_pos (by omega)]
  simp only [hl, Nat.add_sub_cancel, hr, Res.map]
  rw [if_neg (by omega)]

theorem unshuffleAll_ok (n : Nat) (hn : 0 < n) (b : Bytes) (hd : n ∣ b.length) :
    unshuffleAll (h5Shuffle n b) b.length n = .ok b := by
  unfold unshuffleAll
  by_cases h0 : b.length = 0
  · rw [if_pos h0, List.length_eq_zero_iff.mp h0]
  · rw [if_neg h0]
    have hl := h5Shuffle_length n b
    unfold Unsh.read
    simp only [h0, ↓reduceIte]
    rw [List.take_of_length_le (by omega), C27_unshuffle_inverse_partial n hn b hd]
    simp only [Nat.lt_irrefl, ↓reduceIte, Res.map, hl, Nat.sub_self, List.replicate_zero, List.append_nil, List.take_length,
      gt_iff_lt]

theorem undoFilters_append (inflate : Bytes → Res Bytes) (mask : Nat) :
    ∀ (xs ys : List (Nat × (Nat × List Nat) × Nat)) (x : Bytes × Nat),
      undoFilters inflate mask (xs ++ ys) x =
        match undoFilters inflate mask xs x with
        | .ok y => undoFilters inflate mask ys y
        | .err e => .err e
        | .panic => .panic := by
  intro xs
  induction xs with
  | nil => intro ys x; simp [undoFilters]
  | cons f xs ih =>
    intro ys x
    obtain ⟨j, f, target⟩ := f
    obtain ⟨b, size⟩ := x
    rw [List.cons_append]
    simp only [undoFilters]
    split
    · exact ih _ _
    · split
      · cases fletcherAll b size with
        | ok => exact ih _ _
        | err => rfl
        | panic => rfl
      · split
        · cases inflate b with
          | ok => exact ih _ _
          | err => rfl
          | panic => rfl
        · cases unshuffleAll b target (f.2.headD 0) with
          | ok => exact ih _ _
          | err => rfl
          | panic => rfl

/-- The filters with their numbers and target sizes. -/
def stages (mask : Nat) : Nat → List (Nat × List Nat) → Nat → List (Nat × (Nat × List Nat) × Nat)
  | _, [], _ => []
  | j, f :: fs, curr =>
    (j, f, curr) :: stages mask (j + 1) fs (if mask / 2 ^ j % 2 = 0 ∧ f.1 = 3 then curr + 4 else curr)

theorem stages_eq (mask : Nat) : ∀ (fs : List (Nat × List Nat)) (j curr : Nat),
    (List.range' j fs.length).zip (fs.zip (targetSizes mask j fs curr)) = stages mask j fs curr := by
  intro fs
  induction fs with
  | nil => intro j curr; rfl
  | cons f fs ih =>
    intro j curr
    rw [List.length_cons, List.range'_succ, targetSizes, List.zip_cons_cons, List.zip_cons_cons, ih, stages]

theorem bit_zero {mask j : Nat} (h : mask.testBit j = false) : mask / 2 ^ j % 2 = 0 := by
  rw [Nat.testBit_eq_decide_div_mod_eq] at h
  simp only [decide_eq_false_iff_not] at h
  omega

theorem bit_one {mask j : Nat} (h : mask.testBit j = true) : mask / 2 ^ j % 2 = 1 := by
  rw [Nat.testBit_eq_decide_div_mod_eq] at h
  simpa using h

/-- The filters are undone, the last one first. -/
theorem undo_stages {inflate : Bytes → Res Bytes} {mask j : Nat} {packed : Bool} {fs : List (Nat × List Nat)}
    {b out : Bytes} (h : Encoded inflate mask j packed fs b out) :
    ∀ curr, (packed = false → curr = b.length) →
      undoFilters inflate mask (stages mask j fs curr).reverse (out, out.length) = .ok (b, b.length) := by
  induction h with
  | nil j packed b => intro curr _; rfl
  | skip j packed f fs b out hb _ ih =>
    intro curr hc
    have hb1 := bit_one hb
    rw [stages, List.reverse_cons, undoFilters_append, if_neg (by omega), ih curr hc]
    simp only [undoFilters, hb1, ↓reduceIte]
  | deflate j ps fs b z out hb hz _ ih =>
    intro curr hc
    have hb0 := bit_zero hb
    rw [stages, List.reverse_cons, undoFilters_append, ih _ (by simp)]
    simp only [undoFilters, hb0, Nat.zero_ne_one, show ¬ 1 = 3 from by decide, ↓reduceIte, hz]
    rw [hc rfl, List.take_length]
  | shuffle j n ps fs b out hb hn hd _ ih =>
    intro curr hc
    have hb0 := bit_zero hb
    have hcurr := hc rfl
    subst hcurr
    rw [stages, List.reverse_cons, undoFilters_append,
      ih _ (fun _ => by rw [h5Shuffle_length, if_neg (by simp)])]
    simp only [undoFilters, hb0, Nat.zero_ne_one, show ¬ 2 = 3 from by decide, show ¬ 2 = 1 from by decide, ↓reduceIte,
      List.headD_cons, unshuffleAll_ok n hn b hd]
  | fletcher j packed ps fs b out hb hlt h1 h2 _ ih =>
    intro curr hc
    have hb0 := bit_zero hb
    rw [stages, List.reverse_cons, undoFilters_append,
      ih _ (fun hp => by rw [if_pos ⟨hb0, rfl⟩, hc hp]; simp)]
    simp only [undoFilters, hb0, Nat.zero_ne_one, ↓reduceIte, fletcherAll_ok b h1 h2]
    congr 2
    simp only [List.length_append, leEnc_length]
    have := u64_sub (a := b.length + 4) (b := 4) (by omega) (by omega)
    rw [Nat.add_sub_cancel] at this
    exact this

theorem pipeline_stages (fs : List (Nat × List Nat)) (v : DBlock) :
    pipeline fs v = (stages v.mask 0 fs v.dsLength).reverse := by
  rw [pipeline, List.range_eq_range', stages_eq]

/-- A chunk that is stored through filters. -/
theorem chunkHolds_encoded {inflate : Bytes → Res Bytes} {file : Bytes} {filters : List (Nat × List Nat)} {ch : Chunk}
    {data out : Bytes} (hf : file.length < 2 ^ 63) (hat : At file ch.addr out) (hsize : ch.size = out.length) (hout : out ≠ [])
    (henc : Encoded inflate ch.mask 0 false filters data out) : ChunkHolds inflate file filters ch data := by
  have hle := hat.le hout
  refine ⟨[], ?_⟩
  have hp := List.length_pos_iff.mpr hout
  unfold blockBytes
  have hs := newSeek_at hat rfl hf hp
  simp only [hsize, hs, Res.bind_ok, Nat.lt_irrefl, false_and, ↓reduceIte, pipeline_stages,
    undo_stages henc data.length (fun _ => rfl), Nat.not_lt_zero, List.drop_zero, Res.pure_eq, List.append_nil]

end Verif.H5
