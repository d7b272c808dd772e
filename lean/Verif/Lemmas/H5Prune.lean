import Verif.Lemmas.H5Elem
/-!
Which chunks are left out when a slice is read.
-/
namespace Verif.H5

theorem inline_inChunk : ∀ {dims layout off idx : List Nat}, layout.length = dims.length → dims ≠ [] →
    ((layout.dropLast.all (· == 1)) = true) → InChunk layout off idx →
    rowIndex dims off ≤ rowIndex dims idx ∧ rowIndex dims idx < rowIndex dims off + prod layout := by
  intro dims
  induction dims with
  | nil => intro layout off idx _ h; exact absurd rfl h
  | cons d ds ih =>
    intro layout off idx hlen _ hone hin
    match layout, off, idx, hin with
    | l :: ls, o :: os, i :: is, hin =>
      simp only [InChunk] at hin
      cases ds with
      | nil =>
        have : ls = [] := by simpa using hlen
        subst this
        match os, is, hin.2 with
        | [], [], _ =>
          simp only [rowIndex, prod, Nat.mul_one, Nat.add_zero]
          omega
      | cons d' ds =>
        cases ls with
        | nil => simp at hlen
        | cons l' ls =>
          simp only [List.dropLast_cons₂, List.all_cons, Bool.and_eq_true, beq_iff_eq] at hone
          obtain ⟨h1, h2⟩ := ih (layout := l' :: ls) (off := os) (idx := is) (by simpa using hlen) (by simp) hone.2 hin.2
          have : i = o := by omega
          subst this
          have hp : prod (l :: l' :: ls) = prod (l' :: ls) := by rw [prod, hone.1, Nat.one_mul]
          rw [hp]
          simp only [rowIndex] at h1 h2 ⊢
          omega

/-- The chunks that have an element of the slice are among the blocks that are read. -/
theorem StoredVar.kept {inflate : Bytes → Res Bytes} {file : Bytes} {i : Info} {dt : DT} {dims : List Nat}
    {cell : List Nat → Bytes} {pat : Bytes} {t : Index} {addr : Nat}
    (h : StoredVar inflate file i dt dims cell pat t addr) {fuel d : Nat} {ds : List Nat}
    (hfuel : t.depth ≤ fuel) (hd : dims = d :: ds) {b e : Nat} (h1 : b ≤ e) (h2 : e ≤ d)
    {out : Bytes} {n : Nat} {blocks : List DBlock}
    (hr : recordBytes inflate fuel file i dt dims [] (some ((b : Int), (e : Int))) = .ok (out, n, blocks))
    {ch : Chunk} (hch : ch ∈ t.chunks) {x : Nat} {xs : List Nat} (hx : InRange dims (x :: xs)) (hb : b ≤ x) (he : x < e)
    (hin : InChunk i.layout ch.offsets (x :: xs)) :
    Chunk.toD (prod i.layout * dt.len) ch ∈ blocks := by
  have hlt := rowIndex_lt hx
  have hp : 0 < prod dims := by omega
  have hL : 0 < prod i.layout * dt.len := Nat.mul_pos (prod_pos_of h.geo.lay) h.geo.dt
  have hsz := h.geo.calc
  have hg := grid_pos h.geo.len h.geo.lay hp
  unfold recordBytes at hr
  simp only [hsz, Res.bind_ok] at hr
  have hne : prod (gridShape dims i.layout) * prod i.layout * dt.len ≠ 0 := by
    rw [Nat.mul_assoc]; exact Nat.ne_of_gt (Nat.mul_pos hg hL)
  rw [if_neg (by simpa [Nat.mul_assoc] using hne)] at hr
  have hmem : ∀ {first last : Nat} {bl : List DBlock}, (first = 0 ∨ Inline dims i.layout) →
      blocksOf fuel file i dims first last [] = .ok bl →
      overlaps (fun o => rowIndex dims o * dt.len) (prod i.layout * dt.len) first last ch = true →
      Chunk.toD (prod i.layout * dt.len) ch ∈ bl := by
    intro first last bl hf hbl ho
    rw [h.blocks hfuel hp hf] at hbl
    cases hbl
    exact List.mem_map_of_mem (List.mem_filter.mpr ⟨hch, ho⟩)
  rcases needs_cases h.geo with ⟨hl, hil⟩ | hl
  · have hprod := inline_prod h.geo.len h.geo.lay hil.div
    subst hd
    have hd0 : 0 < d := all_pos_of_prod hp d List.mem_cons_self
    have hsl : SliceOK (d :: ds) (some ((b : Int), (e : Int))) := ⟨d, ds, rfl, hd0, by omega, by omega, by omega⟩
    obtain ⟨hr1, -, -⟩ := byteRange_ok (sl := some ((b : Int), (e : Int))) (sz := prod (d :: ds) * dt.len) hsl h.size
      (fun q hq => Nat.lt_trans (h.geo.dlt q hq) (by decide))
    have hq : prod (d :: ds) * dt.len / d = prod ds * dt.len := by
      rw [prod, Nat.mul_assoc, Nat.mul_div_cancel_left _ hd0]
    simp only [hl, Res.bind_ok, ← Nat.mul_assoc, hprod, hr1, rangeOf, List.headD_cons, hq, Int.toNat_natCast] at hr
    obtain ⟨bl, hbl, hr⟩ := Res.bind_eq_ok.mp hr
    obtain ⟨bs, -, hr⟩ := Res.bind_eq_ok.mp hr
    simp only [Res.pure_eq, Res.ok.injEq, Prod.mk.injEq] at hr
    obtain ⟨-, -, rfl⟩ := hr
    refine hmem (.inr hil) hbl ?_
    obtain ⟨g1, g2⟩ := inline_inChunk h.geo.len h.geo.ne hil.one hin
    simp only [InRange] at hx
    have hxs := rowIndex_lt hx.2
    have hri : rowIndex (d :: ds) (x :: xs) = x * prod ds + rowIndex ds xs := rfl
    rw [hri] at g1 g2
    have g3 : b * prod ds ≤ x * prod ds := Nat.mul_le_mul_right _ hb
    have g4 : (x + 1) * prod ds ≤ e * prod ds := Nat.mul_le_mul_right _ he
    rw [Nat.add_mul, Nat.one_mul] at g4
    simp only [overlaps, Bool.and_eq_true, decide_eq_true_eq, ← Nat.mul_assoc, ← Nat.add_mul]
    exact ⟨Nat.mul_lt_mul_of_pos_right (by omega) h.geo.dt, Nat.mul_lt_mul_of_pos_right (by omega) h.geo.dt⟩
  · have hbr : byteRange dims (prod (gridShape dims i.layout) * (prod i.layout * dt.len)) true (some ((b : Int), (e : Int))) =
        (0, prod (gridShape dims i.layout) * (prod i.layout * dt.len), prod (gridShape dims i.layout) * (prod i.layout * dt.len)) := by
      subst hd
      simp [byteRange]
    simp only [hl, Res.bind_ok, hbr] at hr
    obtain ⟨bl, hbl, hr⟩ := Res.bind_eq_ok.mp hr
    obtain ⟨bs, -, hr⟩ := Res.bind_eq_ok.mp hr
    simp only [Res.pure_eq, Res.ok.injEq, Prod.mk.injEq] at hr
    obtain ⟨-, -, rfl⟩ := hr
    refine hmem (.inl rfl) hbl ?_
    obtain ⟨g1, g2, -⟩ := h.coord hch
    have g3 := rowIndex_lt (inRange_mulIx h.geo.len h.geo.lay g1)
    rw [← g2] at g3
    have g4 := prod_le_grid h.geo.len h.geo.lay
    simp only [overlaps, Bool.and_eq_true, decide_eq_true_eq]
    refine ⟨?_, by omega⟩
    calc rowIndex dims ch.offsets * dt.len < prod dims * dt.len := Nat.mul_lt_mul_of_pos_right g3 h.geo.dt
      _ ≤ _ := by rw [← Nat.mul_assoc]; exact Nat.mul_le_mul_right _ g4

end Verif.H5
