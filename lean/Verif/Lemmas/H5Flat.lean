import Verif.Lemmas.H5Fill
import Verif.Lemmas.H5Elem
/-!
Variables that are stored in one piece.
-/
namespace Verif.H5

section
variable {inflate : Bytes → Res Bytes} {file : Bytes} {i : Info} {dt : DT} {dims : List Nat}
  {cell : List Nat → Bytes} {pat : Bytes}

theorem FlatVar.calc (h : FlatVar file i dt dims cell pat) : calcAttrSize dims i.layout dt.len = .ok (prod dims * dt.len) := by
  have h1 := h.size
  have h2 := Nat.le_mul_of_pos_right (prod dims) h.elem
  rw [calcAttrSize, if_pos h.layout, prod64_eq (by omega), Nat.mod_eq_of_lt (by omega)]

theorem FlatVar.needs (h : FlatVar file i dt dims cell pat) : needsLayoutReader dims i.layout = .ok false := by
  rw [needsLayoutReader, if_pos h.layout]

theorem blockBytes_at {a n : Nat} {b : Bytes} (hf : file.length < 2 ^ 63) (hat : At file a b) (hn : b.length = n) (hb : b ≠ []) :
    BlockReads inflate file [] (Block.toD (.at a n)) b := by
  have hp := List.length_pos_iff.mpr hb
  have hle := hat.le hb
  have hs := newSeek_at hat hn hf (by omega)
  have hfull : blockBytes inflate file [] (Block.toD (.at a n)) 0 0 = .ok b := by
    unfold blockBytes
    simp only [Block.toD, hs, Res.bind_ok, Nat.lt_irrefl, false_and, ↓reduceIte, pipeline, List.length_nil, List.range_zero,
      List.zip_nil_left, List.reverse_nil, undoFilters, Nat.not_lt_zero, List.drop_zero, Res.pure_eq]
  have := reads_of_full hf hfull (fun _ => rfl) (by simp [Block.toD, hn]) (by simp only [Block.toD]; omega)
  rwa [List.take_of_length_le (by simp [Block.toD, hn])] at this

theorem blockBytes_raw {b : Bytes} (hf : file.length < 2 ^ 63) (hb : b.length < 2 ^ 63) :
    BlockReads inflate file [] (Block.toD (.raw b)) b := by
  have hfull : blockBytes inflate file [] (Block.toD (.raw b)) 0 0 = .ok b := by
    have hk0 : i64 (u64 ((b.length : Int) - ((0 : Nat) : Int))) = b.length := by
      rw [u64_sub (by omega) (by omega), Nat.sub_zero, i64_of_lt (by omega)]
    unfold blockBytes
    simp only [Block.toD, hk0]
    rw [if_neg (by omega)]
    simp only [pipeline, List.length_nil, List.range_zero, Int.toNat_natCast, List.take_length,
      List.zip_nil_left, List.reverse_nil, undoFilters, Res.bind_ok, Nat.not_lt_zero, ↓reduceIte, List.drop_zero, Res.pure_eq]
  have := reads_of_full hf hfull (fun _ => rfl) (by simp [Block.toD]) (by simp only [Block.toD]; omega)
  rwa [List.take_of_length_le (by simp [Block.toD])] at this

/-- The bytes of a range of rows. -/
theorem FlatVar.bytes (h : FlatVar file i dt dims cell pat) {fuel : Nat} {sl : Sl} (hp : 0 < prod dims) (hsl : SliceOK dims sl) :
    dataBytes inflate fuel file i dt dims (i.blocks.map Block.toD) sl =
      .ok (((rowMajor dims cell).drop (rangeOf dims (prod dims * dt.len) sl).1).take
        ((rangeOf dims (prod dims * dt.len) sl).2 - (rangeOf dims (prod dims * dt.len) sl).1), i.blocks.map Block.toD) := by
  have hsz := h.calc
  have hlt := h.size
  have hpos : 0 < prod dims * dt.len := Nat.mul_pos hp h.elem
  have hrl := rowMajor_length (dims := dims) (cell := cell) (n := dt.len) fun idx _ => h.cells idx
  have hrne : rowMajor dims cell ≠ [] := by
    intro e
    rw [e, List.length_nil] at hrl
    omega
  have hdvd : pat.length ∣ (rangeOf dims (prod dims * dt.len) sl).1 ∧ pat.length ∣ (rangeOf dims (prod dims * dt.len) sl).2 := by
    cases sl with
    | none => exact ⟨Nat.dvd_zero _, Nat.dvd_trans h.patLen (Nat.dvd_mul_left _ _)⟩
    | some xy =>
      obtain ⟨d, ds, rfl, h0, -⟩ := hsl
      have : prod (d :: ds) * dt.len / d = prod ds * dt.len := by
        rw [prod, Nat.mul_assoc, Nat.mul_div_cancel_left _ h0]
      simp only [rangeOf, List.headD_cons, this]
      have hd := Nat.dvd_trans h.patLen (Nat.dvd_mul_left dt.len (prod ds))
      exact ⟨Nat.dvd_trans hd (Nat.dvd_mul_left _ _), Nat.dvd_trans hd (Nat.dvd_mul_left _ _)⟩
  obtain ⟨-, hr2, hr3⟩ := byteRange_ok (sl := sl) hsl hlt h.dlt
  have hblocks : ∀ first last, blocksOf fuel file i dims first last (i.blocks.map Block.toD) = .ok (i.blocks.map Block.toD) := by
    intro first last
    rcases h.data with ⟨a, hb, -⟩ | hb | ⟨hb, -⟩ <;> rw [hb]
    · rfl
    · rfl
    · simp only [List.map_nil, blocksOf, h.chunk]
  have hmain : ∃ ps : List Piece, Place inflate file i dims dt.len 0 (i.blocks.map Block.toD) ps ∧ ps.Pairwise Piece.Apart ∧
      ps.Pairwise (fun a b => (rangeOf dims (prod dims * dt.len) sl).2 ≤ a.offset → (rangeOf dims (prod dims * dt.len) sl).2 ≤ b.offset) ∧
      (∀ s ∈ ps, s.data ≠ [] ∧ s.offset + s.data.length < 2 ^ 63 ∧ pat.length ∣ s.offset ∧ pat.length ∣ s.data.length) ∧
      IsStream ps (patByte pat) 0 (prod dims * dt.len) (rowMajor dims cell) := by
    have hone : ∀ (b : Block), i.blocks = [b] → BlockReads inflate file [] b.toD (rowMajor dims cell) → ∃ ps : List Piece,
        Place inflate file i dims dt.len 0 (i.blocks.map Block.toD) ps ∧ ps.Pairwise Piece.Apart ∧
        ps.Pairwise (fun a b => (rangeOf dims (prod dims * dt.len) sl).2 ≤ a.offset → (rangeOf dims (prod dims * dt.len) sl).2 ≤ b.offset) ∧
        (∀ s ∈ ps, s.data ≠ [] ∧ s.offset + s.data.length < 2 ^ 63 ∧ pat.length ∣ s.offset ∧ pat.length ∣ s.data.length) ∧
        IsStream ps (patByte pat) 0 (prod dims * dt.len) (rowMajor dims cell) := by
      intro b hb hr
      refine ⟨[⟨0, rowMajor dims cell⟩], ?_, List.pairwise_singleton _ _, List.pairwise_singleton _ _, ?_, ?_⟩
      · rw [hb]
        refine .cons 0 _ _ _ _ (fun _ => rfl) (fun e => absurd h.layout e) ?_ (.nil _)
        rw [h.filters]
        exact hr
      · intro s hs
        rw [List.mem_singleton] at hs
        subst hs
        exact ⟨hrne, by simp only [hrl]; omega, Nat.dvd_zero _, by
          simp only [hrl]; exact Nat.dvd_trans h.patLen (Nat.dvd_mul_left _ _)⟩
      · refine ⟨by rw [hrl, Nat.sub_zero], fun p _ h2 => ⟨?_, fun hn => ?_⟩⟩
        · intro s hs _
          rw [List.mem_singleton] at hs
          subst hs
          rfl
        · exact absurd ⟨Nat.zero_le _, by simp only [hrl]; omega⟩ (hn ⟨0, rowMajor dims cell⟩ (List.mem_singleton.mpr rfl))
    rcases h.data with ⟨a, hb, hat⟩ | hb | ⟨hb, hfill⟩
    · exact hone _ hb (blockBytes_at h.small hat hrl hrne)
    · exact hone _ hb (blockBytes_raw h.small (by omega))
    · refine ⟨[], by rw [hb]; exact .nil _, .nil, .nil, by simp, ?_⟩
      rw [hfill]
      have := IsStream.fill (ps := []) (pat := pat) (a := 0) (b := prod dims * dt.len) (Nat.dvd_zero _) (by simp)
      rwa [Nat.sub_zero] at this
  obtain ⟨ps, g1, g2, g3, g4, g5⟩ := hmain
  obtain ⟨b, hb1, hb2⟩ := dataBytes_ok hsz hlt hpos h.needs hsl h.dlt h.fill.pattern hdvd.1 hdvd.2 (hblocks _ _) g1 g2 g3 g4
  rw [hb1]
  congr 2
  have hs' := g5.sub (c := (rangeOf dims (prod dims * dt.len) sl).1) (d := (rangeOf dims (prod dims * dt.len) sl).2)
    (by omega) hr3
  rw [Nat.sub_zero] at hs'
  exact IsStream.unique hb2 hs'

theorem FlatVar.empty (h : FlatVar file i dt dims cell pat) {fuel : Nat} {cached : List DBlock} {sl : Sl}
    (hp : prod dims = 0) (hsl : ∀ x y, sl = some (x, y) → x ≤ y) :
    dataBytes inflate fuel file i dt dims cached sl = .ok ([], cached) := by
  have hsz := h.calc
  rw [hp, Nat.zero_mul] at hsz
  have hrec : recordBytes inflate fuel file i dt dims cached sl = .ok ([], 0, cached) := by
    unfold recordBytes
    simp only [hsz, Res.bind_ok, ↓reduceIte, Res.pure_eq]
  unfold dataBytes
  simp only [hsz, hrec, h.needs, Res.bind_ok, Res.pure_eq, Nat.lt_irrefl, ↓reduceIte, Bool.false_eq_true]
  cases sl with
  | none => rfl
  | some xy =>
    obtain ⟨x, y⟩ := xy
    have := hsl x y rfl
    simp only
    rw [if_neg (by omega), List.take_nil]

/-- The values of a whole variable. -/
theorem FlatVar.values (h : FlatVar file i dt dims cell pat) {fuel : Nat} {heap : HeapFn} {base : GoTy}
    {val : List Nat → GoVal}
    (ht : ElemTy dt base) (hz : (∃ e, dt = .vlen 16 false e) → 0 < prod dims)
    (hval : ∀ idx, InRange dims idx → ElemOf heap dt (cell idx) (val idx)) :
    getData inflate fuel heap file i dt dims (i.blocks.map Block.toD) none =
      .ok (tabulate base dims val, i.blocks.map Block.toD) := by
  have hrl := rowMajor_length (dims := dims) (cell := cell) (n := dt.len) fun idx _ => h.cells idx
  have hb : dataBytes inflate fuel file i dt dims (i.blocks.map Block.toD) none =
      .ok (rowMajor dims cell ++ [], i.blocks.map Block.toD) := by
    rw [List.append_nil]
    rcases Nat.eq_zero_or_pos (prod dims) with hp | hp
    · rw [h.empty hp (by simp), rowMajor_nil hp]
    · rw [h.bytes hp (sl := none) trivial]
      simp only [rangeOf, Nat.sub_zero, List.drop_zero]
      rw [List.take_of_length_le (by omega)]
  unfold getData
  simp only [hb, Res.bind_ok, sliceDims, onBytes, alloc_elems ht hz hval, Res.pure_eq]

/-- The values of a range of rows. -/
theorem FlatVar.slice (h : FlatVar file i dt dims cell pat) {fuel d : Nat} {ds : List Nat} {heap : HeapFn} {base : GoTy}
    {val : List Nat → GoVal} (hd : dims = d :: ds) {b e : Nat} (h1 : b ≤ e) (h2 : e ≤ d)
    (ht : ElemTy dt base) (hz : (∃ e, dt = .vlen 16 false e) → 0 < prod dims ∧ b < e)
    (hval : ∀ idx, InRange dims idx → ElemOf heap dt (cell idx) (val idx)) :
    getData inflate fuel heap file i dt dims (i.blocks.map Block.toD) (some ((b : Int), (e : Int))) =
      .ok (goSlice b e (tabulate base dims val), i.blocks.map Block.toD) := by
  have hdl := h.dlt d (by rw [hd]; exact List.mem_cons_self)
  have hb : dataBytes inflate fuel file i dt dims (i.blocks.map Block.toD) (some ((b : Int), (e : Int))) =
      .ok (rowMajor ((e - b) :: ds) fun idx => cell (shiftIx b idx), i.blocks.map Block.toD) := by
    rcases Nat.eq_zero_or_pos (prod dims) with hp | hp
    · rw [h.empty hp (by rintro x y ⟨⟩; omega)]
      congr 2
      subst hd
      rw [rowMajor_nil]
      rcases Nat.mul_eq_zero.mp hp with h0 | h0
      · rw [prod, show e - b = 0 from by omega, Nat.zero_mul]
      · rw [prod, h0, Nat.mul_zero]
    · subst hd
      have hd0 : 0 < d := all_pos_of_prod hp d List.mem_cons_self
      have hq : prod (d :: ds) * dt.len / d = prod ds * dt.len := by
        rw [prod, Nat.mul_assoc, Nat.mul_div_cancel_left _ hd0]
      rw [h.bytes hp (sl := some ((b : Int), (e : Int))) ⟨d, ds, rfl, hd0, by omega, by omega, by omega⟩]
      simp only [rangeOf, List.headD_cons, hq, Int.toNat_natCast]
      rw [← Nat.mul_sub_right_distrib, rowMajor_slice h.cells h1 h2]
  subst hd
  have hs : sliceDims (d :: ds) (some ((b : Int), (e : Int))) = (e - b) :: ds := by
    simp only [sliceDims, u64_sub h1 (show e < 2 ^ 64 by omega)]
  have ha := alloc_elems (heap := heap) (dims := (e - b) :: ds) (cell := fun idx => cell (shiftIx b idx))
    (val := fun idx => val (shiftIx b idx)) ht
    (fun he => by
      obtain ⟨g1, g2⟩ := hz he
      exact Nat.mul_pos (by omega) (Nat.pos_of_mul_pos_left g1))
    (fun idx hidx => hval _ (by
      cases idx with
      | nil => exact hidx
      | cons x xs =>
        simp only [InRange, shiftIx] at hidx ⊢
        exact ⟨by omega, hidx.2⟩)) 0 []
  rw [List.append_nil] at ha
  unfold getData
  simp only [hb, Res.bind_ok, hs, onBytes, ha, Res.pure_eq, tabulate_slice base d ds val h1 h2]

end

/-! ### Streams -/

theorem Placed.place {inflate : Bytes → Res Bytes} {file : Bytes} {i : Info} {dims : List Nat} {dtLen : Nat}
    (hf : file.length < 2 ^ 63) (hg : i.layout ≠ [] → Geo dims i.layout dtLen) :
    ∀ {off : Nat} {vs : List DBlock} {ps : List Piece}, Placed inflate file i dims dtLen off vs ps →
      (∀ s ∈ ps, s.offset + s.data.length < 2 ^ 63) → Place inflate file i dims dtLen off vs ps := by
  intro off vs ps h
  induction h with
  | nil off => intro _; exact .nil off
  | cons off v vs s ss flat chunk raw len holds _ ih =>
    intro hs
    have hs0 := hs s List.mem_cons_self
    obtain ⟨rest, hb⟩ := holds
    refine .cons off v vs s ss flat (fun hl => ?_) ?_ (ih fun x hx => hs x (List.mem_cons_of_mem _ hx))
    · obtain ⟨c, h1, h2, h3⟩ := chunk hl
      rw [h2, h3, (hg hl).flat h1]
    · have := reads_of_full hf hb raw (by rw [len, List.length_append]; omega) (by omega)
      rwa [len, List.take_left] at this

/-- The byte stream of a whole variable. -/
theorem recordBytes_whole {inflate : Bytes → Res Bytes} {fuel : Nat} {file : Bytes} {i : Info} {dt : DT} {dims : List Nat}
    {cached blocks : List DBlock} {ps : List Piece} {pat : Bytes} {sz : Nat}
    (hf : file.length < 2 ^ 63) (hg : i.layout ≠ [] → Geo dims i.layout dt.len)
    (hsz : calcAttrSize dims i.layout dt.len = .ok sz) (hsz1 : sz < 2 ^ 63) (hsz0 : 0 < sz)
    (hpat : fillPattern i dt = .ok pat) (hk : pat.length ∣ sz)
    (hb : blocksOf fuel file i dims 0 sz cached = .ok blocks)
    (hpl : Placed inflate file i dims dt.len 0 blocks ps) (hap : ps.Pairwise Piece.Apart)
    (hall : ∀ s ∈ ps, s.data ≠ [] ∧ s.offset < sz ∧ s.offset + s.data.length < 2 ^ 63 ∧ pat.length ∣ s.offset ∧
      pat.length ∣ s.data.length) :
    ∃ b, recordBytes inflate fuel file i dt dims cached none = .ok (b, sz, blocks) ∧ IsStream ps (patByte pat) 0 sz b := by
  have hpl' := hpl.place hf hg fun s hs => (hall s hs).2.2.1
  obtain ⟨lay, hlay⟩ : ∃ lay, needsLayoutReader dims i.layout = .ok lay := by
    by_cases hl : i.layout = []
    · exact ⟨false, by rw [needsLayoutReader, if_pos hl]⟩
    · rcases needs_cases (hg hl) with ⟨h, -⟩ | h
      · exact ⟨_, h⟩
      · exact ⟨_, h⟩
  obtain ⟨b, e, g1, -, -, -, g5, -, g7⟩ := recordFrom_ok (first := 0) (last := sz) hpat (by omega) hsz1 (Nat.dvd_zero _) hk hpl' hap
    ((List.pairwise_of_forall (l := ps) (R := fun _ _ => True) fun _ _ => trivial).imp_of_mem (by
      intro a b ha _ _ hle
      have := (hall a ha).2.1
      omega))
    (fun s hs => ⟨(hall s hs).1, (hall s hs).2.2.1, (hall s hs).2.2.2⟩)
  have he := g7 rfl
  subst he
  refine ⟨b, ?_, g5⟩
  rw [Nat.sub_zero] at g1
  unfold recordBytes
  simp only [hsz, Res.bind_ok, hlay, byteRange, hb, g1, Res.pure_eq]
  rw [if_neg (by omega)]

end Verif.H5
