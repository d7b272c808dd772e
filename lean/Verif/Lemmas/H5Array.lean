import Verif.Lemmas.H5Fill
import Verif.Spec.H5Array
import Verif.Lemmas.H5Stream
import Verif.Lemmas.H5Index
import Verif.Lemmas.H5Layout
/-!
The bytes and the values of chunked variables.
-/
namespace Verif.H5

/-! ### Positions -/

theorem rowIndex_lex : ∀ {dims a b : List Nat}, InRange dims a → b.length = dims.length → lexLt a b →
    rowIndex dims a < rowIndex dims b := by
  intro dims
  induction dims with
  | nil => intro a b ha hb h; cases a <;> simp_all [InRange, lexLt]
  | cons d ds ih =>
    intro a b ha hb h
    cases a with
    | nil => simp [InRange] at ha
    | cons x xs =>
      cases b with
      | nil => simp at hb
      | cons y ys =>
        simp only [InRange] at ha
        simp only [lexLt] at h
        simp only [rowIndex]
        rcases h with h | ⟨rfl, h⟩
        · have h1 := rowIndex_lt ha.2
          have h2 : (x + 1) * prod ds ≤ y * prod ds := Nat.mul_le_mul_right _ h
          rw [Nat.add_mul] at h2
          omega
        · have := ih ha.2 (by simpa using hb) h
          omega

theorem lexLt_mulIx : ∀ {layout a b : List Nat}, a.length = layout.length → b.length = layout.length →
    (∀ l ∈ layout, 0 < l) → lexLt (mulIx a layout) (mulIx b layout) → lexLt a b := by
  intro layout
  induction layout with
  | nil => intro a b ha hb _ h; cases a <;> cases b <;> simp_all [mulIx, lexLt]
  | cons l ls ih =>
    intro a b ha hb hl h
    cases a with
    | nil => simp at ha
    | cons x xs =>
      cases b with
      | nil => simp at hb
      | cons y ys =>
        simp only [mulIx, List.zipWith_cons_cons, lexLt] at h ⊢
        have hl0 := hl l List.mem_cons_self
        rcases h with h | ⟨h1, h2⟩
        · exact .inl (Nat.lt_of_mul_lt_mul_right h)
        · exact .inr ⟨Nat.eq_of_mul_eq_mul_right hl0 h1, ih (by simpa using ha) (by simpa using hb)
            (fun m hm => hl m (List.mem_cons_of_mem _ hm)) h2⟩

theorem mulIx_inj : ∀ {layout a b : List Nat}, a.length = layout.length → b.length = layout.length →
    (∀ l ∈ layout, 0 < l) → mulIx a layout = mulIx b layout → a = b := by
  intro layout
  induction layout with
  | nil => intro a b ha hb _ h; cases a <;> cases b <;> simp_all
  | cons l ls ih =>
    intro a b ha hb hl h
    cases a with
    | nil => simp at ha
    | cons x xs =>
      cases b with
      | nil => simp at hb
      | cons y ys =>
        simp only [mulIx, List.zipWith_cons_cons, List.cons.injEq] at h
        rw [Nat.eq_of_mul_eq_mul_right (hl l List.mem_cons_self) h.1,
          ih (by simpa using ha) (by simpa using hb) (fun m hm => hl m (List.mem_cons_of_mem _ hm)) h.2]

theorem lt_ceil {x d l : Nat} (hl : 0 < l) (h : x < (d + l - 1) / l) : x * l < d := by
  have h1 : (x + 1) * l ≤ d + l - 1 := Nat.le_trans (Nat.mul_le_mul_right _ h) (Nat.div_mul_le_self _ _)
  rw [Nat.add_mul] at h1
  omega

theorem le_ceil_mul {d l : Nat} (hl : 0 < l) : d ≤ (d + l - 1) / l * l := by
  have h1 := Nat.div_add_mod (d + l - 1) l
  have h2 := Nat.mod_lt (d + l - 1) hl
  rw [Nat.mul_comm] at h1
  omega

theorem inRange_mulIx : ∀ {dims layout c : List Nat}, layout.length = dims.length → (∀ l ∈ layout, 0 < l) →
    InRange (gridShape dims layout) c → InRange dims (mulIx c layout) := by
  intro dims
  induction dims with
  | nil => intro layout c h _ hc; cases c <;> simp_all [gridShape, InRange, mulIx]
  | cons d ds ih =>
    intro layout c h hl hc
    cases layout with
    | nil => simp at h
    | cons l ls =>
      cases c with
      | nil => simp [gridShape, InRange] at hc
      | cons x xs =>
        simp only [gridShape, List.zipWith_cons_cons, InRange] at hc
        exact ⟨lt_ceil (hl l List.mem_cons_self) hc.1, ih (by simpa using h) (fun m hm => hl m (List.mem_cons_of_mem _ hm)) hc.2⟩

theorem prod_le_grid : ∀ {dims layout : List Nat}, layout.length = dims.length → (∀ l ∈ layout, 0 < l) →
    prod dims ≤ prod (gridShape dims layout) * prod layout := by
  intro dims
  induction dims with
  | nil => intro layout h _; cases layout <;> simp_all [gridShape, prod]
  | cons d ds ih =>
    intro layout h hl
    cases layout with
    | nil => simp at h
    | cons l ls =>
      have h1 := le_ceil_mul (d := d) (hl l List.mem_cons_self)
      have h2 := ih (layout := ls) (by simpa using h) (fun m hm => hl m (List.mem_cons_of_mem _ hm))
      show d * prod ds ≤ (d + l - 1) / l * prod (gridShape ds ls) * (l * prod ls)
      calc d * prod ds ≤ ((d + l - 1) / l * l) * (prod (gridShape ds ls) * prod ls) := Nat.mul_le_mul h1 h2
        _ = _ := by ac_rfl

theorem grid_zero : ∀ {dims layout : List Nat}, layout.length = dims.length → (∀ l ∈ layout, 0 < l) →
    prod dims = 0 → prod (gridShape dims layout) = 0 := by
  intro dims
  induction dims with
  | nil => intro layout h _ h0; simp [prod] at h0
  | cons d ds ih =>
    intro layout h hl h0
    cases layout with
    | nil => simp at h
    | cons l ls =>
      have hl0 := hl l List.mem_cons_self
      show (d + l - 1) / l * prod (gridShape ds ls) = 0
      rcases Nat.mul_eq_zero.mp h0 with h1 | h1
      · rw [h1, Nat.div_eq_of_lt (by omega), Nat.zero_mul]
      · rw [ih (by simpa using h) (fun m hm => hl m (List.mem_cons_of_mem _ hm)) h1, Nat.mul_zero]

theorem grid_pos {dims layout : List Nat} (h : layout.length = dims.length) (hl : ∀ l ∈ layout, 0 < l)
    (hp : 0 < prod dims) : 0 < prod (gridShape dims layout) := by
  have := prod_le_grid h hl
  rcases Nat.eq_zero_or_pos (prod (gridShape dims layout)) with h0 | h0
  · rw [h0] at this; omega
  · exact h0

theorem all_pos_of_prod {dims : List Nat} (h : 0 < prod dims) : ∀ d ∈ dims, 0 < d := by
  induction dims with
  | nil => simp
  | cons d ds ih =>
    simp only [prod] at h
    intro x hx
    rcases List.mem_cons.mp hx with rfl | hx
    · exact Nat.pos_of_mul_pos_right h
    · exact ih (Nat.pos_of_mul_pos_left h) x hx

/-- The chunks are runs of elements of the array. -/
structure Inline (dims layout : List Nat) : Prop where
  div : ((dims.zip layout).all fun p => p.1 % p.2 == 0) = true
  one : (layout.dropLast.all (· == 1)) = true

theorem inline_prod : ∀ {dims layout : List Nat}, layout.length = dims.length → (∀ l ∈ layout, 0 < l) →
    ((dims.zip layout).all fun p => p.1 % p.2 == 0) = true → prod (gridShape dims layout) * prod layout = prod dims := by
  intro dims
  induction dims with
  | nil => intro layout h _ _; cases layout <;> simp_all [gridShape, prod]
  | cons d ds ih =>
    intro layout h hl h4
    cases layout with
    | nil => simp at h
    | cons l ls =>
      simp only [List.zip_cons_cons, List.all_cons, Bool.and_eq_true, beq_iff_eq] at h4
      have h1 := ceil_mul (hl l List.mem_cons_self) h4.1
      have h2 := ih (layout := ls) (by simpa using h) (fun m hm => hl m (List.mem_cons_of_mem _ hm)) h4.2
      show (d + l - 1) / l * prod (gridShape ds ls) * (l * prod ls) = d * prod ds
      calc (d + l - 1) / l * prod (gridShape ds ls) * (l * prod ls)
          = ((d + l - 1) / l * l) * (prod (gridShape ds ls) * prod ls) := by ac_rfl
        _ = _ := by rw [h1, h2]

theorem inline_rowIndex : ∀ {dims layout c : List Nat}, layout.length = dims.length → dims ≠ [] → (∀ l ∈ layout, 0 < l) →
    Inline dims layout → c.length = dims.length →
    rowIndex dims (mulIx c layout) = rowIndex (gridShape dims layout) c * prod layout := by
  intro dims
  induction dims with
  | nil => intro layout c _ h; exact absurd rfl h
  | cons d ds ih =>
    intro layout c h _ hl hin hc
    cases layout with
    | nil => simp at h
    | cons l ls =>
      cases c with
      | nil => simp at hc
      | cons x xs =>
        obtain ⟨h4, h5⟩ := hin
        simp only [List.zip_cons_cons, List.all_cons, Bool.and_eq_true, beq_iff_eq] at h4
        show x * l * prod ds + rowIndex ds (mulIx xs ls) =
          (x * prod (gridShape ds ls) + rowIndex (gridShape ds ls) xs) * (l * prod ls)
        cases ds with
        | nil =>
          have : ls = [] := by simpa using h
          subst this
          simp [mulIx, rowIndex, gridShape, prod]
        | cons d' ds =>
          cases ls with
          | nil => simp at h
          | cons l' ls =>
            simp only [List.dropLast_cons₂, List.all_cons, Bool.and_eq_true, beq_iff_eq] at h5
            have hl' : ∀ m ∈ l' :: ls, 0 < m := fun m hm => hl m (List.mem_cons_of_mem _ hm)
            have h1 := ih (layout := l' :: ls) (c := xs) (by simpa using h) (by simp) hl' ⟨h4.2, h5.2⟩ (by simpa using hc)
            have h2 := inline_prod (dims := d' :: ds) (layout := l' :: ls) (by simpa using h) hl' h4.2
            rw [h1, h5.1, ← h2, Nat.mul_one, Nat.one_mul, Nat.add_mul, Nat.mul_assoc]

theorem needs_cases {dims layout : List Nat} {n : Nat} (h : Geo dims layout n) :
    (needsLayoutReader dims layout = .ok false ∧ Inline dims layout) ∨ needsLayoutReader dims layout = .ok true := by
  have h0 : ¬ (dims.length > layout.length ∨ (layout.take dims.length).contains 0 = true) := by
    rw [h.len]
    rintro (h1 | h1)
    · omega
    · have : 0 ∈ layout.take dims.length := by simpa using h1
      have := h.lay 0 (List.mem_of_mem_take this)
      omega
  unfold needsLayoutReader
  rw [if_neg h.layout_ne, if_neg h0]
  cases h1 : ((dims.zip layout).any (fun p => p.1 % p.2 != 0) || layout.dropLast.any (· != 1)) with
  | true => exact .inr rfl
  | false =>
    refine .inl ⟨rfl, ?_, ?_⟩
    · rw [Bool.or_eq_false_iff] at h1
      have := h1.1
      simp only [List.any_eq_false, List.all_eq_true, bne_iff_ne, beq_iff_eq, ne_eq, Decidable.not_not] at this ⊢
      exact this
    · rw [Bool.or_eq_false_iff] at h1
      have := h1.2
      simp only [List.any_eq_false, List.all_eq_true, bne_iff_ne, beq_iff_eq, ne_eq, Decidable.not_not] at this ⊢
      exact this

/-! ### The order of the index -/

theorem Index.ordered {dims layout : List Nat} {n : Nat} {whole : Prop} (hg : Geo dims layout n)
    (hin : whole ∨ Inline dims layout) (t : Index) :
    t.Sorted dims → (∀ k ∈ t.keys, ∃ c, c.length = dims.length ∧ k.offsets = mulIx c layout) →
      (∀ ch ∈ t.chunks, ∃ c, InRange (gridShape dims layout) c ∧ ch.offsets = mulIx c layout) →
      t.Ordered whole (fun o => rowIndex dims o * n) (prod layout * n) := by
  induction t using Index.rec (motive_2 := fun ks => ks.Sorted dims →
      (∀ k ∈ ks.keys, ∃ c, c.length = dims.length ∧ k.offsets = mulIx c layout) →
      (∀ ch ∈ ks.chunks, ∃ c, InRange (gridShape dims layout) c ∧ ch.offsets = mulIx c layout) →
      ks.Ordered whole (fun o => rowIndex dims o * n) (prod layout * n)) with
  | leaf cs k => intros; simp [Index.Ordered]
  | node level ks ih =>
    intro h1 h2 h3
    simp only [Index.Sorted, Index.keys, Index.chunks, Index.Ordered] at *
    exact ih h1 h2 h3
  | last k => simp [Kids.Ordered]
  | cons k a t rest iht ihr =>
    rename_i h1 h2 h3
    simp only [Kids.Sorted] at h1
    simp only [Kids.keys, List.mem_cons, List.mem_append] at h2
    simp only [Kids.chunks, List.mem_append] at h3
    simp only [Kids.Ordered]
    refine ⟨fun ch hch => ?_, iht h1.2.1 (fun k' h => h2 k' (.inr (.inl h))) (fun c h => h3 c (.inl h)),
      ihr h1.2.2 (fun k' h => h2 k' (.inr (.inr h))) (fun c h => h3 c (.inr h))⟩
    obtain ⟨g1, g2, g3⟩ := h1.1 ch hch
    obtain ⟨c, hc1, hc2⟩ := h3 ch (.inl hch)
    have hcl : c.length = dims.length := by
      rw [hc1.length, gridShape, List.length_zipWith, hg.len, Nat.min_self]
    have hml : (mulIx c layout).length = dims.length := by
      rw [mulIx, List.length_zipWith, hcl, hg.len, Nat.min_self]
    refine ⟨?_, ?_⟩
    · rcases g2 with g2 | g2
      · rw [g2]; exact Nat.le_refl _
      · refine Nat.mul_le_mul_right _ (Nat.le_of_lt (rowIndex_lex g1 ?_ g2))
        rw [hc2, hml]
    · rcases hin with hw | hin
      · exact .inl hw
      · obtain ⟨c', hc1', hc2'⟩ := h2 rest.first (.inr (.inr rest.first_mem))
        refine .inr (.inr ?_)
        rw [hc2, hc2'] at g3 ⊢
        have hlt := rowIndex_lex hc1 (by rw [hc1', gridShape, List.length_zipWith, hg.len, Nat.min_self])
          (lexLt_mulIx (by rw [hcl, hg.len]) (by rw [hc1', hg.len]) hg.lay g3)
        rw [inline_rowIndex hg.len hg.ne hg.lay hin hcl, inline_rowIndex hg.len hg.ne hg.lay hin hc1', ← Nat.add_mul]
        refine Nat.mul_le_mul_right _ ?_
        have := Nat.mul_le_mul_right (prod layout) hlt
        rw [Nat.succ_eq_add_one, Nat.add_mul] at this
        omega

/-! ### The blocks that are read -/

section
variable {inflate : Bytes → Res Bytes} {file : Bytes} {i : Info} {dt : DT} {dims : List Nat}
  {cell : List Nat → Bytes} {pat : Bytes} {t : Index} {addr : Nat}

theorem StoredVar.size (h : StoredVar inflate file i dt dims cell pat t addr) : prod dims * dt.len < 2 ^ 63 := by
  have h1 := prod_le_grid h.geo.len h.geo.lay
  exact Nat.lt_of_le_of_lt (Nat.mul_le_mul_right _ h1) h.geo.size

/-- The index gives the chunks that overlap the range. -/
theorem StoredVar.blocks (h : StoredVar inflate file i dt dims cell pat t addr) {fuel first last : Nat}
    (hfuel : t.depth ≤ fuel) (hp : 0 < prod dims) (hin : first = 0 ∨ Inline dims i.layout) :
    blocksOf fuel file i dims first last [] =
      .ok ((t.chunks.filter (overlaps (fun o => rowIndex dims o * dt.len) (prod i.layout * dt.len) first last)).map
        (Chunk.toD (prod i.layout * dt.len))) := by
  have hpos := all_pos_of_prod hp
  have hsz := h.size
  have hchunk : ∀ ch ∈ t.chunks, ∃ c, InRange (gridShape dims i.layout) c ∧ ch.offsets = mulIx c i.layout :=
    fun ch hch => by obtain ⟨c, h1, h2, -⟩ := h.holds ch hch; exact ⟨c, h1, h2⟩
  unfold blocksOf
  simp only [h.chunk, h.addr0, ↓reduceIte]
  refine readBTree_ok (whole := first = 0) id h.small (Nat.mul_pos (prod_pos_of h.geo.lay) h.geo.dt) h.rank t fuel true addr
    hfuel h.stored (t.ordered h.geo hin h.sorted h.aligned hchunk) ?_ ?_
  · intro k hk
    obtain ⟨c, hc, he⟩ := h.aligned k hk
    refine keyOffset_eq ?_ hpos (by rw [Nat.mul_comm]; omega) (h.keys k hk)
    rw [he, mulIx, List.length_zipWith, hc, h.geo.len, Nat.min_self]
  · intro ch hch
    obtain ⟨c, hc, he⟩ := hchunk ch hch
    have hr := inRange_mulIx h.geo.len h.geo.lay hc
    rw [← he] at hr
    have h1 := Nat.mul_le_mul_right dt.len (Nat.le_of_lt (rowIndex_lt hr))
    have h2 := h.geo.chunk
    exact ⟨keyOffset_eq hr.length hpos (by rw [Nat.mul_comm]; omega) (by omega), by omega⟩

/-- The number of a chunk along each dimension. -/
def coordOf (layout : List Nat) (ch : Chunk) : List Nat := List.zipWith (· / ·) ch.offsets layout

theorem coordOf_eq : ∀ {layout c : List Nat}, c.length = layout.length → (∀ l ∈ layout, 0 < l) →
    List.zipWith (· / ·) (mulIx c layout) layout = c := by
  intro layout
  induction layout with
  | nil => intro c h _; cases c <;> simp_all [mulIx]
  | cons l ls ih =>
    intro c h hl
    cases c with
    | nil => simp at h
    | cons x xs =>
      have := ih (c := xs) (by simpa using h) (fun m hm => hl m (List.mem_cons_of_mem _ hm))
      simp only [mulIx, List.zipWith_cons_cons, List.cons.injEq] at this ⊢
      exact ⟨Nat.mul_div_cancel _ (hl l List.mem_cons_self), this⟩

theorem StoredVar.coord (h : StoredVar inflate file i dt dims cell pat t addr) {ch : Chunk} (hch : ch ∈ t.chunks) :
    InRange (gridShape dims i.layout) (coordOf i.layout ch) ∧ ch.offsets = mulIx (coordOf i.layout ch) i.layout ∧
      ChunkHolds inflate file i.filters ch (chunkData i.layout cell (coordOf i.layout ch)) := by
  obtain ⟨c, h1, h2, h3⟩ := h.holds ch hch
  have hcl : c.length = i.layout.length := by
    rw [h1.length, gridShape, List.length_zipWith, h.geo.len, Nat.min_self]
  have : coordOf i.layout ch = c := by rw [coordOf, h2, coordOf_eq hcl h.geo.lay]
  rw [this]
  exact ⟨h1, h2, h3⟩

/-- The bytes of a chunk and where they belong. -/
def pieceOf (dims layout : List Nat) (n : Nat) (cell : List Nat → Bytes) (ch : Chunk) : Piece :=
  ⟨rowIndex (gridShape dims layout) (coordOf layout ch) * (prod layout * n), chunkData layout cell (coordOf layout ch)⟩

theorem StoredVar.place (h : StoredVar inflate file i dt dims cell pat t addr) :
    ∀ (chs : List Chunk) (off : Nat), (∀ ch ∈ chs, ch ∈ t.chunks) →
      Place inflate file i dims dt.len off (chs.map (Chunk.toD (prod i.layout * dt.len)))
        (chs.map (pieceOf dims i.layout dt.len cell)) := by
  intro chs
  induction chs with
  | nil => intro off _; exact .nil off
  | cons ch chs ih =>
    intro off hs
    obtain ⟨h1, h2, rest, h3⟩ := h.coord (hs ch List.mem_cons_self)
    have hlen := chunkData_length (layout := i.layout) (c := coordOf i.layout ch) h.cells
    refine .cons off _ _ _ _ (fun e => absurd e h.geo.layout_ne) (fun _ => ?_) ?_ (ih _ fun c hc => hs c (List.mem_cons_of_mem _ hc))
    · show flatOffset ch.offsets dims i.layout dt.len = _
      rw [h2]
      rw [h.geo.flat h1]
      rfl
    · rw [hlen] at h3
      have h4 := reads_of_full h.small h3 (by simp) (by rw [List.length_append, hlen]; exact Nat.le_add_right _ _) h.geo.chunk
      show BlockReads inflate file i.filters (Chunk.toD (prod i.layout * dt.len) ch) (chunkData i.layout cell (coordOf i.layout ch))
      rw [List.take_append_of_le_length (by simp only [hlen]; omega), List.take_of_length_le (by simp only [hlen]; omega)] at h4
      exact h4

theorem StoredVar.pieces (h : StoredVar inflate file i dt dims cell pat t addr) {ch : Chunk} (hch : ch ∈ t.chunks) :
    (pieceOf dims i.layout dt.len cell ch).data ≠ [] ∧
      (pieceOf dims i.layout dt.len cell ch).offset + (pieceOf dims i.layout dt.len cell ch).data.length ≤
        prod (gridShape dims i.layout) * (prod i.layout * dt.len) ∧
      pat.length ∣ (pieceOf dims i.layout dt.len cell ch).offset ∧
      pat.length ∣ (pieceOf dims i.layout dt.len cell ch).data.length := by
  obtain ⟨h1, -, -⟩ := h.coord hch
  have hlen := chunkData_length (layout := i.layout) (c := coordOf i.layout ch) h.cells
  have hL : 0 < prod i.layout * dt.len := Nat.mul_pos (prod_pos_of h.geo.lay) h.geo.dt
  have hd : pat.length ∣ prod i.layout * dt.len := Nat.dvd_trans h.patLen (Nat.dvd_mul_left _ _)
  have hr := Nat.mul_le_mul_right (prod i.layout * dt.len) (rowIndex_lt h1)
  rw [Nat.succ_eq_add_one, Nat.add_mul, Nat.one_mul] at hr
  simp only [pieceOf, hlen]
  refine ⟨fun e => ?_, hr, Nat.dvd_trans hd (Nat.dvd_mul_left _ _), hd⟩
  rw [e, List.length_nil] at hlen
  omega

theorem StoredVar.apart (h : StoredVar inflate file i dt dims cell pat t addr) :
    ∀ (chs : List Chunk), (∀ ch ∈ chs, ch ∈ t.chunks) → (chs.map (·.offsets)).Nodup →
      (chs.map (pieceOf dims i.layout dt.len cell)).Pairwise Piece.Apart := by
  intro chs hs hn
  rw [List.pairwise_map]
  have hn' : chs.Pairwise fun a b => a.offsets ≠ b.offsets := by
    rw [List.Nodup, List.pairwise_map] at hn
    exact hn
  refine hn'.imp_of_mem ?_
  intro a b ha hb hne
  obtain ⟨h1, h2, -⟩ := h.coord (hs a ha)
  obtain ⟨g1, g2, -⟩ := h.coord (hs b hb)
  have hlen := fun c => chunkData_length (layout := i.layout) (c := c) h.cells
  have : rowIndex (gridShape dims i.layout) (coordOf i.layout a) ≠ rowIndex (gridShape dims i.layout) (coordOf i.layout b) := by
    intro e
    exact hne (by rw [h2, g2, rowIndex_inj h1 g1 e])
  simp only [Piece.Apart, pieceOf, hlen]
  rcases Nat.lt_or_gt_of_ne this with h3 | h3
  · have := Nat.mul_le_mul_right (prod i.layout * dt.len) h3
    rw [Nat.succ_eq_add_one, Nat.add_mul, Nat.one_mul] at this
    exact .inl this
  · have := Nat.mul_le_mul_right (prod i.layout * dt.len) h3
    rw [Nat.succ_eq_add_one, Nat.add_mul, Nat.one_mul] at this
    exact .inr this

/-- All chunks, one after the other. -/
theorem StoredVar.stream (h : StoredVar inflate file i dt dims cell pat t addr) :
    IsStream (t.chunks.map (pieceOf dims i.layout dt.len cell)) (patByte pat) 0
      (prod (gridShape dims i.layout) * (prod i.layout * dt.len))
      ((indices (gridShape dims i.layout)).flatMap (chunkData i.layout cell)) := by
  have hd : pat.length ∣ prod i.layout * dt.len := Nat.dvd_trans h.patLen (Nat.dvd_mul_left _ _)
  have := chunks_stream (grid := gridShape dims i.layout) (layout := i.layout) (cell := cell) (n := dt.len) (pat := pat)
    (cs := t.chunks.map (coordOf i.layout)) h.cells hd
    (fun c hc => by
      obtain ⟨ch, h1, rfl⟩ := List.mem_map.mp hc
      exact (h.coord h1).1)
    (fun c hc hn => h.missing c hc fun ch hch e => hn (by
      rw [List.mem_map]
      refine ⟨ch, hch, ?_⟩
      rw [coordOf, e, coordOf_eq ?_ h.geo.lay]
      rw [hc.length, gridShape, List.length_zipWith, h.geo.len, Nat.min_self]))
  rw [List.map_map] at this
  exact this

/-- The bytes of a range of rows, when no layout reader is needed. `chs` are the chunks that the
object has or that are found in the index. -/
theorem StoredVar.inline (h : StoredVar inflate file i dt dims cell pat t addr) {fuel : Nat} {cached : List DBlock} {sl : Sl}
    (hlay : needsLayoutReader dims i.layout = .ok false) (hin : Inline dims i.layout) (hp : 0 < prod dims)
    (hsl : SliceOK dims sl) {chs : List Chunk}
    (hb : blocksOf fuel file i dims (rangeOf dims (prod dims * dt.len) sl).1 (rangeOf dims (prod dims * dt.len) sl).2 cached =
      .ok (chs.map (Chunk.toD (prod i.layout * dt.len))))
    (hsub : ∀ ch ∈ chs, ch ∈ t.chunks) (hnd : (chs.map (·.offsets)).Nodup)
    (hall : ∀ ch ∈ t.chunks, overlaps (fun o => rowIndex dims o * dt.len) (prod i.layout * dt.len)
      (rangeOf dims (prod dims * dt.len) sl).1 (rangeOf dims (prod dims * dt.len) sl).2 ch = true → ch ∈ chs)
    (hst : chs.Pairwise fun a b => (rangeOf dims (prod dims * dt.len) sl).2 ≤ rowIndex dims a.offsets * dt.len →
      (rangeOf dims (prod dims * dt.len) sl).2 ≤ rowIndex dims b.offsets * dt.len) :
    dataBytes inflate fuel file i dt dims cached sl =
      .ok (((rowMajor dims cell).drop (rangeOf dims (prod dims * dt.len) sl).1).take
        ((rangeOf dims (prod dims * dt.len) sl).2 - (rangeOf dims (prod dims * dt.len) sl).1),
        chs.map (Chunk.toD (prod i.layout * dt.len))) := by
  have hprod := inline_prod h.geo.len h.geo.lay hin.div
  have hsz : calcAttrSize dims i.layout dt.len = .ok (prod dims * dt.len) := by
    rw [h.geo.calc, ← Nat.mul_assoc, hprod]
  have hlt := h.size
  have hpos : 0 < prod dims * dt.len := Nat.mul_pos hp h.geo.dt
  have hdim : ∀ d ∈ dims, d < 2 ^ 63 := fun d hd => by have := h.geo.dlt d hd; omega
  have hoff : ∀ ch ∈ t.chunks, (pieceOf dims i.layout dt.len cell ch).offset = rowIndex dims ch.offsets * dt.len := by
    intro ch hch
    obtain ⟨h1, h2, -⟩ := h.coord hch
    rw [h2, inline_rowIndex h.geo.len h.geo.ne h.geo.lay hin
      (by rw [h1.length, gridShape, List.length_zipWith, h.geo.len, Nat.min_self]), Nat.mul_assoc]
    rfl
  have hdvd : pat.length ∣ (rangeOf dims (prod dims * dt.len) sl).1 ∧ pat.length ∣ (rangeOf dims (prod dims * dt.len) sl).2 := by
    cases sl with
    | none => exact ⟨Nat.dvd_zero _, Nat.dvd_trans h.patLen (Nat.dvd_mul_left _ _)⟩
    | some xy =>
      obtain ⟨d, ds, rfl, h0, -⟩ := hsl
      have : prod (d :: ds) * dt.len / d = prod ds * dt.len := by
        rw [prod, Nat.mul_assoc, Nat.mul_div_cancel_left _ h0]
      simp only [rangeOf, List.headD_cons, this]
      have hd := Nat.dvd_trans h.patLen (Nat.dvd_mul_left dt.len (prod ds))
      exact ⟨Nat.dvd_trans hd (Nat.dvd_mul_left _ _), Nat.dvd_trans hd (Nat.dvd_mul_left _ _)⟩
  obtain ⟨-, hr2, hr3⟩ := byteRange_ok (sl := sl) hsl hlt hdim
  obtain ⟨b, hb1, hb2⟩ := dataBytes_ok hsz hlt hpos hlay hsl hdim h.fill.pattern hdvd.1 hdvd.2 hb (h.place chs 0 hsub)
    (h.apart chs hsub hnd)
    (by
      rw [List.pairwise_map]
      refine hst.imp_of_mem ?_
      intro a b ha hb
      rw [hoff a (hsub a ha), hoff b (hsub b hb)]
      exact id)
    (by
      intro s hs
      obtain ⟨ch, hch, rfl⟩ := List.mem_map.mp hs
      obtain ⟨h1, h2, h3⟩ := h.pieces (hsub ch hch)
      rw [← Nat.mul_assoc, hprod] at h2
      exact ⟨h1, by omega, h3⟩)
  rw [hb1]
  congr 2
  have hs := h.stream
  rw [← Nat.mul_assoc, hprod, chunks_inline cell h.geo.len h.geo.ne h.geo.lay hin.div hin.one] at hs
  have hs' := hs.sub (c := (rangeOf dims (prod dims * dt.len) sl).1) (d := (rangeOf dims (prod dims * dt.len) sl).2)
    (by omega) hr3
  rw [Nat.sub_zero] at hs'
  refine IsStream.unique hb2 (hs'.congr ?_)
  intro s p hp1 hp2 hc
  constructor
  · intro hm
    obtain ⟨ch, hch, rfl⟩ := List.mem_map.mp hm
    refine List.mem_map.mpr ⟨ch, hall ch hch ?_, rfl⟩
    obtain ⟨hc1, hc2⟩ := hc
    have hlen := chunkData_length (layout := i.layout) (c := coordOf i.layout ch) h.cells
    rw [hoff ch hch] at hc1 hc2
    rw [show (pieceOf dims i.layout dt.len cell ch).data.length = prod i.layout * dt.len from hlen] at hc2
    simp only [overlaps, Bool.and_eq_true, decide_eq_true_eq]
    omega
  · intro hm
    obtain ⟨ch, hch, rfl⟩ := List.mem_map.mp hm
    exact List.mem_map.mpr ⟨ch, hsub ch hch, rfl⟩

/-- The bytes of a variable that needs a layout reader. -/
theorem StoredVar.layout (h : StoredVar inflate file i dt dims cell pat t addr) {fuel : Nat}
    (hlay : needsLayoutReader dims i.layout = .ok true) (hp : 0 < prod dims) (hfuel : t.depth ≤ fuel)
    (ho : StripesInOrder dims i.layout) :
    ∃ rest, dataBytes inflate fuel file i dt dims [] none =
      .ok (rowMajor dims cell ++ rest, t.chunks.map (Chunk.toD (prod i.layout * dt.len))) := by
  have hgp := grid_pos h.geo.len h.geo.lay hp
  have hL : 0 < prod i.layout * dt.len := Nat.mul_pos (prod_pos_of h.geo.lay) h.geo.dt
  have hlt := h.size
  have hle := prod_le_grid h.geo.len h.geo.lay
  have hle' : prod dims * dt.len ≤ prod (gridShape dims i.layout) * (prod i.layout * dt.len) := by
    rw [← Nat.mul_assoc]; exact Nat.mul_le_mul_right _ hle
  have hsz2 : prod (gridShape dims i.layout) * (prod i.layout * dt.len) < 2 ^ 63 := by
    rw [← Nat.mul_assoc]; exact h.geo.size
  have hsz0 : 0 < prod (gridShape dims i.layout) * (prod i.layout * dt.len) := Nat.mul_pos hgp hL
  have hd : pat.length ∣ prod i.layout * dt.len := Nat.dvd_trans h.patLen (Nat.dvd_mul_left _ _)
  have hsz := h.geo.calc
  have hrm := rowMajor_length (dims := dims) (cell := cell) (n := dt.len) fun idx _ => h.cells idx
  have hst := h.stream
  have hlb := layoutBytes_rowMajor h.geo h.cells ho
  have hbl := h.blocks (first := 0) (last := prod (gridShape dims i.layout) * (prod i.layout * dt.len)) hfuel hp (.inl rfl)
  generalize hN : prod (gridShape dims i.layout) * (prod i.layout * dt.len) = N at *
  have hfil : t.chunks.filter (overlaps (fun o => rowIndex dims o * dt.len) (prod i.layout * dt.len) 0 N) = t.chunks := by
    rw [List.filter_eq_self]
    intro ch hch
    obtain ⟨h1, h2, -⟩ := h.coord hch
    have hr := rowIndex_lt (inRange_mulIx h.geo.len h.geo.lay h1)
    rw [← h2] at hr
    have := Nat.mul_lt_mul_of_pos_right hr h.geo.dt
    simp only [overlaps, Bool.and_eq_true, decide_eq_true_eq]
    omega
  rw [hfil] at hbl
  obtain ⟨b, e, g1, g2, g3, g4, g5, g6, g7⟩ := recordFrom_ok (first := 0) (last := N) h.fill.pattern (by omega) (by omega)
    (Nat.dvd_zero _) (by rw [← hN]; exact Nat.dvd_trans hd (Nat.dvd_mul_left _ _)) (h.place t.chunks 0 fun _ hc => hc)
    (h.apart t.chunks (fun _ hc => hc) h.distinct)
    (by
      rw [List.pairwise_map]
      refine (List.pairwise_of_forall (l := t.chunks) (R := fun _ _ => True) fun _ _ => trivial).imp_of_mem ?_
      intro a b ha hb _ hle
      obtain ⟨h1, h2, -⟩ := h.pieces ha
      have := List.length_pos_iff.mpr h1
      omega)
    (by
      intro s hs
      obtain ⟨ch, hch, rfl⟩ := List.mem_map.mp hs
      obtain ⟨h1, h2, h3⟩ := h.pieces hch
      exact ⟨h1, by omega, h3⟩)
  have he := g7 rfl
  subst he
  have hbe : b = (indices (gridShape dims i.layout)).flatMap (chunkData i.layout cell) := g5.unique hst
  rw [Nat.sub_zero] at g1
  have hrec : recordBytes inflate fuel file i dt dims [] none =
      .ok (b, e, t.chunks.map (Chunk.toD (prod i.layout * dt.len))) := by
    unfold recordBytes
    simp only [hsz, Res.bind_ok, hlay, byteRange, hbl, g1, Res.pure_eq]
    rw [if_neg (by omega)]
  unfold dataBytes
  simp only [hsz, hrec, hlay, Res.bind_ok, ↓reduceIte, Res.pure_eq]
  rw [hbe, hlb]
  simp only [Res.bind_ok]
  have hdl : prod dims < 2 ^ 64 := by
    have := Nat.le_mul_of_pos_right (prod dims) h.geo.dt
    omega
  rw [prod64_eq hdl, Nat.mod_eq_of_lt (by omega)]
  by_cases hr : prod dims * dt.len < e
  · rw [if_pos hr]
    simp only [fillBytes, h.fill.pattern, Res.map, Res.bind_ok]
    rw [List.take_append, List.take_of_length_le (by omega)]
    exact ⟨_, rfl⟩
  · rw [if_neg hr]
    rw [List.take_of_length_le (by omega)]
    exact ⟨[], by rw [List.append_nil]⟩

end

end Verif.H5
