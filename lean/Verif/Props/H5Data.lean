import Verif.Lemmas.H5Prune
import Verif.Lemmas.H5Pipeline
import Verif.Props.H5DataEx
/-!
C29, C30, C31, C44, C47 and C48: the data of HDF5 variables.
-/
namespace Verif.H5

variable {inflate : Bytes → Res Bytes} {file : Bytes} {i : Info} {dt : DT} {dims : List Nat} {cell : List Nat → Bytes}
  {pat : Bytes} {t : Index} {addr fuel : Nat} {heap : HeapFn} {base : GoTy} {val : List Nat → GoVal}

/-! ### C29 -/

/-- C29, when the stripes of chunks are in the order of the elements: the values of a chunked
variable, with an index of any depth, any chunk shape, filters and chunks that are not stored, are
the elements at their indices. Missing: the other chunk shapes with three or more dimensions, for
which it fails (`C29_negation`), and sequences in an array with a dimension of length zero
(`C47_negation_empty`). -/
theorem C29_chunked_values_partial (h : StoredVar inflate file i dt dims cell pat t addr) (hfuel : t.depth ≤ fuel)
    (ho : StripesInOrder dims i.layout) (ht : ElemTy dt base) (hz : (∃ e, dt = .vlen 16 false e) → 0 < prod dims)
    (hval : ∀ idx, InRange dims idx → ElemOf heap dt (cell idx) (val idx)) :
    ∃ blocks, getData inflate fuel heap file i dt dims [] none = .ok (tabulate base dims val, blocks) := by
  obtain ⟨blocks, h1, -⟩ := h.values hfuel ho ht hz hval
  exact ⟨blocks, h1⟩

/-- C29, every chunk shape with one or two dimensions. -/
theorem C29_rank_two_partial (h : StoredVar inflate file i dt dims cell pat t addr) (hfuel : t.depth ≤ fuel)
    (hr : dims.length ≤ 2) (ht : ElemTy dt base) (hz : (∃ e, dt = .vlen 16 false e) → 0 < prod dims)
    (hval : ∀ idx, InRange dims idx → ElemOf heap dt (cell idx) (val idx)) :
    ∃ blocks, getData inflate fuel heap file i dt dims [] none = .ok (tabulate base dims val, blocks) := by
  refine C29_chunked_values_partial h hfuel ?_ ht hz hval
  have hl := h.geo.len
  match dims, i.layout, hr, hl with
  | [], _, _, _ => simp [StripesInOrder]
  | [_], _ :: _, _, _ => simp [StripesInOrder]
  | [_, _], [_, _], _, _ => simp [StripesInOrder, Covered]

/-- C29 fails for chunks of 2×1×1 in an array of 2×2×1: the elements (0, 1, 0) and (1, 0, 0) are
interchanged. -/
theorem C29_negation : ∃ (file : Bytes) (i : Info) (dims : List Nat) (cell : List Nat → Bytes) (t : Index)
    (val : List Nat → GoVal) (v : GoVal) (blocks : List DBlock),
    StoredVar noInflate file i (.fixed 1 false false) dims cell [0] t 8 ∧
    (∀ idx, InRange dims idx → ElemOf noHeap (.fixed 1 false false) (cell idx) (val idx)) ∧
    getData noInflate 1 noHeap file i (.fixed 1 false false) dims [] none = .ok (v, blocks) ∧
    v ≠ tabulate (.num .u8) dims val :=
  ⟨badFile, badInfo, [2, 2, 1], badCell, badIndex, badVal,
    .slice (.slice (.slice (.num .u8))) [
      .slice (.slice (.num .u8)) [.slice (.num .u8) [.num .u8 0], .slice (.num .u8) [.num .u8 2]],
      .slice (.slice (.num .u8)) [.slice (.num .u8) [.num .u8 1], .slice (.num .u8) [.num .u8 3]]],
    [⟨.at 168 2, 2, 0, [0, 0, 0]⟩, ⟨.at 170 2, 2, 0, [0, 1, 0]⟩], badVar, badElems, by decide +kernel, by decide +kernel⟩

/-- A 3×4 array in chunks of 2×2 with an index of two levels; one chunk is not stored. -/
example : ∃ blocks, getData noInflate 2 noHeap sqFile sqInfo (.fixed 1 false false) [3, 4] [] none =
    .ok (tabulate (.num .u8) [3, 4] sqVal, blocks) :=
  C29_rank_two_partial sqVar (by decide) (by decide) (.num .u8 false) (by rintro ⟨e, he⟩; cases he) sqElems

example : tabulate (.num .u8) [3, 4] sqVal = .slice (.slice (.num .u8)) [
    .slice (.num .u8) [.num .u8 1, .num .u8 2, .num .u8 3, .num .u8 4],
    .slice (.num .u8) [.num .u8 11, .num .u8 12, .num .u8 13, .num .u8 14],
    .slice (.num .u8) [.num .u8 0, .num .u8 0, .num .u8 23, .num .u8 24]] := by decide +kernel

/-! ### C30 -/

/-- C30: when the rows from `b` to `e` are read, every stored chunk that has an element of these
rows is among the chunks that are used. -/
theorem C30_pruning_keeps_overlapping (h : StoredVar inflate file i dt dims cell pat t addr) (hfuel : t.depth ≤ fuel)
    (b e : Nat) (h1 : b ≤ e) (h2 : e ≤ dims.headD 0) (v : GoVal) (blocks : List DBlock)
    (hg : getData inflate fuel heap file i dt dims [] (some ((b : Int), (e : Int))) = .ok (v, blocks))
    (ch : Chunk) (hch : ch ∈ t.chunks) (x : Nat) (xs : List Nat) (hx : InRange dims (x :: xs)) (hb : b ≤ x) (he : x < e)
    (hin : InChunk i.layout ch.offsets (x :: xs)) :
    ⟨.at ch.addr ch.size, prod i.layout * dt.len, ch.mask, ch.offsets⟩ ∈ blocks := by
  have hd : ∃ d ds, dims = d :: ds := by
    cases dims with
    | nil => exact absurd rfl h.geo.ne
    | cons d ds => exact ⟨d, ds, rfl⟩
  obtain ⟨d, ds, hd⟩ := hd
  rw [hd, List.headD_cons] at h2
  unfold getData at hg
  obtain ⟨⟨by1, bl1⟩, hg1, hg⟩ := Res.bind_eq_ok.mp hg
  obtain ⟨w, -, hg⟩ := Res.bind_eq_ok.mp hg
  simp only [Res.pure_eq, Res.ok.injEq, Prod.mk.injEq] at hg
  obtain ⟨-, rfl⟩ := hg
  unfold dataBytes at hg1
  obtain ⟨sz, -, hg1⟩ := Res.bind_eq_ok.mp hg1
  obtain ⟨⟨by2, rem, bl2⟩, hr, hg1⟩ := Res.bind_eq_ok.mp hg1
  have : bl2 = bl1 := by
    obtain ⟨lay, -, hg1⟩ := Res.bind_eq_ok.mp hg1
    cases lay with
    | _ =>
      simp only [Bool.false_eq_true, ↓reduceIte] at hg1
      obtain ⟨by3, -, hg1⟩ := Res.bind_eq_ok.mp hg1
      have : ¬ ((e : Int) < (b : Int)) := by omega
      split at hg1
      all_goals
        obtain ⟨by4, -, hg1⟩ := Res.bind_eq_ok.mp hg1
        simp only [if_neg this, Res.pure_eq, Res.ok.injEq, Prod.mk.injEq] at hg1
        exact hg1.2
  subst this
  exact h.kept hfuel hd h1 h2 hr hch hx hb he hin

/-- The last row of a 3×2 array with one chunk per row: the first leaf of the index is skipped, the
second is used. -/
example : getData noInflate 2 noHeap rowFile rowInfo (.fixed 1 false false) [3, 2] [] (some (2, 3)) =
      .ok (.slice (.slice (.num .u8)) [.slice (.num .u8) [.num .u8 5, .num .u8 6]], [⟨.at 338 2, 2, 0, [2, 0]⟩]) ∧
    InChunk rowInfo.layout [2, 0] [2, 1] ∧ rowIndexTree.chunks = [⟨2, 0, [0, 0], 336⟩, ⟨2, 0, [2, 0], 338⟩] :=
  ⟨by decide +kernel, by simp [InChunk, rowInfo], by decide +kernel⟩

/-! ### C31 -/

/-- C31, the whole variable: the stream has, position by position, the byte of the block that covers
the position and the fill byte where there is none. The blocks may be listed in any order. -/
theorem C31_stream (hf : file.length < 2 ^ 63) (hg : i.layout ≠ [] → Geo dims i.layout dt.len)
    (sz : Nat) (hsz : calcAttrSize dims i.layout dt.len = .ok sz) (hsz1 : sz < 2 ^ 63) (hsz0 : 0 < sz)
    (hpat : FillOf i dt pat) (hk : pat.length ∣ sz)
    (cached blocks : List DBlock) (hb : blocksOf fuel file i dims 0 sz cached = .ok blocks)
    (ps : List Piece) (hpl : Placed inflate file i dims dt.len 0 blocks ps) (hap : ps.Pairwise Piece.Apart)
    (hall : ∀ s ∈ ps, s.data ≠ [] ∧ s.offset < sz ∧ s.offset + s.data.length < 2 ^ 63 ∧ pat.length ∣ s.offset ∧
      pat.length ∣ s.data.length) :
    ∃ b, recordBytes inflate fuel file i dt dims cached none = .ok (b, sz, blocks) ∧ IsStream ps (patByte pat) 0 sz b :=
  recordBytes_whole hf hg hsz hsz1 hsz0 hpat.pattern hk hb hpl hap hall

/-- C31, the order: two lists of chunks with the same pieces, in any order, give the same bytes. -/
theorem C31_order_independent (hf : file.length < 2 ^ 63) (hg : i.layout ≠ [] → Geo dims i.layout dt.len)
    (sz : Nat) (hsz : calcAttrSize dims i.layout dt.len = .ok sz) (hsz1 : sz < 2 ^ 63) (hsz0 : 0 < sz)
    (hpat : FillOf i dt pat) (hk : pat.length ∣ sz)
    (vs vs' : List DBlock) (hv : vs ≠ []) (hv' : vs' ≠ []) (ps ps' : List Piece) (hps : ∀ s, s ∈ ps ↔ s ∈ ps')
    (hpl : Placed inflate file i dims dt.len 0 vs ps) (hap : ps.Pairwise Piece.Apart)
    (hpl' : Placed inflate file i dims dt.len 0 vs' ps') (hap' : ps'.Pairwise Piece.Apart)
    (hall : ∀ s ∈ ps, s.data ≠ [] ∧ s.offset < sz ∧ s.offset + s.data.length < 2 ^ 63 ∧ pat.length ∣ s.offset ∧
      pat.length ∣ s.data.length) :
    ∃ b, recordBytes inflate fuel file i dt dims vs none = .ok (b, sz, vs) ∧
      recordBytes inflate fuel file i dt dims vs' none = .ok (b, sz, vs') := by
  have hbl : ∀ {ws : List DBlock}, ws ≠ [] → blocksOf fuel file i dims 0 sz ws = .ok ws := by
    intro ws hw
    cases ws with
    | nil => exact absurd rfl hw
    | cons => rfl
  obtain ⟨b, h1, h2⟩ := recordBytes_whole hf hg hsz hsz1 hsz0 hpat.pattern hk (hbl hv) hpl hap hall
  obtain ⟨b', h1', h2'⟩ := recordBytes_whole hf hg hsz hsz1 hsz0 hpat.pattern hk (hbl hv') hpl' hap'
    (fun s hs => hall s ((hps s).mpr hs))
  have : b = b' := (h2.congr fun s _ _ _ _ => hps s).unique h2'
  subst this
  exact ⟨b, h1, h1'⟩

/-- C31, a range of rows of a variable whose chunks are runs of elements (or that has no chunks),
when no block behind the range is listed before one that is not. Missing: the other orders, for
which it fails (`C31_negation_slice`). -/
theorem C31_slice_partial (hf : file.length < 2 ^ 63) (hg : i.layout ≠ [] → Geo dims i.layout dt.len)
    (sz : Nat) (hsz : calcAttrSize dims i.layout dt.len = .ok sz) (hsz1 : sz < 2 ^ 63) (hsz0 : 0 < sz)
    (hlay : needsLayoutReader dims i.layout = .ok false)
    (d : Nat) (ds : List Nat) (hd : dims = d :: ds) (hd0 : 0 < d) (hdl : ∀ d ∈ dims, d < 2 ^ 63)
    (x y : Nat) (hxy : x ≤ y) (hy : y ≤ d)
    (hpat : FillOf i dt pat) (hk1 : pat.length ∣ x * (sz / d)) (hk2 : pat.length ∣ y * (sz / d))
    (cached blocks : List DBlock) (hb : blocksOf fuel file i dims (x * (sz / d)) (y * (sz / d)) cached = .ok blocks)
    (ps : List Piece) (hpl : Placed inflate file i dims dt.len 0 blocks ps) (hap : ps.Pairwise Piece.Apart)
    (hst : ps.Pairwise fun a b => y * (sz / d) ≤ a.offset → y * (sz / d) ≤ b.offset)
    (hall : ∀ s ∈ ps, s.data ≠ [] ∧ s.offset + s.data.length < 2 ^ 63 ∧ pat.length ∣ s.offset ∧
      pat.length ∣ s.data.length) :
    ∃ b, dataBytes inflate fuel file i dt dims cached (some ((x : Int), (y : Int))) = .ok (b, blocks) ∧
      IsStream ps (patByte pat) (x * (sz / d)) (y * (sz / d)) b := by
  have hpl' := hpl.place hf hg fun s hs => (hall s hs).2.1
  subst hd
  have hr : rangeOf (d :: ds) sz (some ((x : Int), (y : Int))) = (x * (sz / d), y * (sz / d)) := by
    simp only [rangeOf, List.headD_cons, Int.toNat_natCast]
  have := dataBytes_ok (sl := some ((x : Int), (y : Int))) (fuel := fuel) (cached := cached) hsz hsz1 hsz0 hlay
    ⟨d, ds, rfl, hd0, by omega, by omega, by omega⟩ hdl hpat.pattern (by rw [hr]; exact hk1) (by rw [hr]; exact hk2)
    (by rw [hr]; exact hb) hpl' hap (by rw [hr]; exact hst) hall
  rw [hr] at this
  exact this

/-- C31 fails for a slice when a chunk behind it is listed first: the first element is stored and
the fill value is read. -/
theorem C31_negation_slice : ∃ (i : Info) (dims : List Nat) (vs : List DBlock) (ps : List Piece) (b : Bytes),
    Placed noInflate [] i dims 1 0 vs ps ∧ ps.Pairwise Piece.Apart ∧
    dataBytes noInflate 0 [] i (.fixed 1 false false) dims vs (some (0, 1)) = .ok (b, vs) ∧
    ¬ IsStream ps (patByte [0]) 0 1 b := by
  refine ⟨{ layout := [1] }, [2], [⟨.raw [7], 1, 0, [1]⟩, ⟨.raw [5], 1, 0, [0]⟩], [⟨1, [7]⟩, ⟨0, [5]⟩], [0], ?_, ?_,
    by decide +kernel, ?_⟩
  · refine .cons _ _ _ _ _ (by simp) (fun _ => ⟨[1], by simp [InRange, gridShape], rfl, by decide⟩) (fun _ => rfl) rfl
      ⟨[], by decide +kernel⟩ ?_
    refine .cons _ _ _ _ _ (by simp) (fun _ => ⟨[0], by simp [InRange, gridShape], rfl, by decide⟩) (fun _ => rfl) rfl
      ⟨[], by decide +kernel⟩ (.nil _)
  · simp [Piece.Apart]
  · intro h
    have := (h.2 0 (by omega) (by omega)).1 ⟨0, [5]⟩ (by simp) (by simp [Piece.Covers])
    simp at this

example : FillOf { fillValue := some .undefined } (storedNum true .i16) [0x80, 0x01] := .undefBE .i16 rfl

example : FillOf { fillValueOld := some [1, 2, 3, 4] } (storedNum false .u32) [1, 2, 3, 4] :=
  .old _ _ rfl rfl (by simp)

/-- Chunks that are listed in reverse order: the whole variable is read. -/
example : recordBytes noInflate 0 [] { layout := [1] } (.fixed 1 false false) [3]
      [⟨.raw [7], 1, 0, [2]⟩, ⟨.raw [5], 1, 0, [0]⟩] none =
    .ok ([5, 0, 7], 3, [⟨.raw [7], 1, 0, [2]⟩, ⟨.raw [5], 1, 0, [0]⟩]) := by decide +kernel

example : ∃ b, recordBytes noInflate 0 [] { layout := [1] } (.fixed 1 false false) [3]
      [⟨.raw [7], 1, 0, [2]⟩, ⟨.raw [5], 1, 0, [0]⟩] none = .ok (b, 3, [⟨.raw [7], 1, 0, [2]⟩, ⟨.raw [5], 1, 0, [0]⟩]) ∧
    IsStream [⟨2, [7]⟩, ⟨0, [5]⟩] (patByte [0]) 0 3 b := by
  have hgeo : Geo [3] [1] 1 := ⟨rfl, by simp, by simp, by simp, by simp, by decide, by decide, by decide⟩
  refine C31_stream (file := []) (dims := [3]) (dt := .fixed 1 false false) (i := { layout := [1] }) (pat := [0])
    (by decide) (fun _ => hgeo) 3 (by decide +kernel) (by decide) (by decide) (.zero _ rfl rfl (by simp)) (by decide)
    [⟨.raw [7], 1, 0, [2]⟩, ⟨.raw [5], 1, 0, [0]⟩] _ rfl [⟨2, [7]⟩, ⟨0, [5]⟩] ?_ ?_ ?_
  · refine .cons _ _ _ _ _ (by simp) (fun _ => ⟨[2], by simp [InRange, gridShape], rfl, by decide⟩) (fun _ => rfl) rfl
      ⟨[], by decide +kernel⟩ ?_
    refine .cons _ _ _ _ _ (by simp) (fun _ => ⟨[0], by simp [InRange, gridShape], rfl, by decide⟩) (fun _ => rfl) rfl
      ⟨[], by decide +kernel⟩ (.nil _)
  · simp [Piece.Apart]
  · simp

/-! ### C44 -/

theorem stripes_of_ones : ∀ {dims layout : List Nat}, layout.length = dims.length →
    (layout.dropLast.all (· == 1)) = true → StripesInOrder dims layout
  | d :: d' :: ds, l :: l' :: ls, hlen, h => by
    simp only [List.dropLast_cons₂, List.all_cons, Bool.and_eq_true, beq_iff_eq] at h
    exact ⟨.inl h.1, stripes_of_ones (dims := d' :: ds) (layout := l' :: ls) (by simpa using hlen) h.2⟩
  | [], _, _, _ => by simp [StripesInOrder]
  | [_], _ :: _, _, _ => by simp [StripesInOrder]
  | [_], [], _, _ => by simp [StripesInOrder]
  | _ :: _ :: _, [_], hlen, _ => by simp at hlen
  | _ :: _ :: _, [], hlen, _ => by simp at hlen

/-- C44, chunked variables whose chunks are runs of elements (length one along each dimension but
the last, of which it is a divisor): reading the rows from `b` to `e` gives these rows of the whole.
This also holds when the variable was read before, if the chunks are indexed in order. Missing: the
other chunk shapes, for which it fails (`C44_negation`). -/
theorem C44_chunked_partial (h : StoredVar inflate file i dt dims cell pat t addr) (hfuel : t.depth ≤ fuel)
    (hlay : needsLayoutReader dims i.layout = .ok false) (ht : ElemTy dt base) (hz : (∃ e, dt = .vlen 16 false e) → 0 < prod dims)
    (hval : ∀ idx, InRange dims idx → ElemOf heap dt (cell idx) (val idx)) :
    ∃ v all, getData inflate fuel heap file i dt dims [] none = .ok (v, all) ∧
      ∀ b e : Nat, b ≤ e → e ≤ dims.headD 0 → ((∃ e, dt = .vlen 16 false e) → b < e) →
        (∃ some', getData inflate fuel heap file i dt dims [] (some ((b : Int), (e : Int))) = .ok (goSlice b e v, some')) ∧
        ((t.chunks.Pairwise fun x y => lexLt x.offsets y.offsets) →
          ∃ some', getData inflate fuel heap file i dt dims all (some ((b : Int), (e : Int))) = .ok (goSlice b e v, some')) := by
  obtain ⟨-, hin⟩ : needsLayoutReader dims i.layout = .ok false ∧ Inline dims i.layout := by
    rcases needs_cases h.geo with h3 | h3
    · exact h3
    · rw [hlay] at h3; cases h3
  obtain ⟨all, h1, h2⟩ := h.values hfuel (stripes_of_ones h.geo.len hin.one) ht hz hval
  refine ⟨_, all, h1, fun b e hbe hed hv => ?_⟩
  obtain ⟨d, ds, hd⟩ : ∃ d ds, dims = d :: ds := by
    cases dims with
    | nil => exact absurd rfl h.geo.ne
    | cons d ds => exact ⟨d, ds, rfl⟩
  rw [hd, List.headD_cons] at hed
  refine ⟨h.slice hfuel hlay hd (.inl rfl) hbe hed ht (fun hx => ⟨hz hx, hv hx⟩) hval, fun hs => ?_⟩
  refine h.slice hfuel hlay hd ?_ hbe hed ht (fun hx => ⟨hz hx, hv hx⟩) hval
  rcases h2 with h2 | ⟨-, h2⟩
  · exact .inr ⟨h2, hs⟩
  · exact .inl h2

/-- C44, variables without chunks. -/
theorem C44_flat_partial (h : FlatVar file i dt dims cell pat) (ht : ElemTy dt base)
    (hz : (∃ e, dt = .vlen 16 false e) → 0 < prod dims)
    (hval : ∀ idx, InRange dims idx → ElemOf heap dt (cell idx) (val idx)) :
    ∃ v all, getData inflate fuel heap file i dt dims (i.blocks.map Block.toD) none = .ok (v, all) ∧
      ∀ b e : Nat, b ≤ e → e ≤ dims.headD 0 → dims ≠ [] → ((∃ e, dt = .vlen 16 false e) → b < e) →
        ∃ some', getData inflate fuel heap file i dt dims all (some ((b : Int), (e : Int))) = .ok (goSlice b e v, some') := by
  refine ⟨_, _, h.values ht hz hval, fun b e hbe hed hne hv => ?_⟩
  obtain ⟨d, ds, hd⟩ : ∃ d ds, dims = d :: ds := by
    cases dims with
    | nil => exact absurd rfl hne
    | cons d ds => exact ⟨d, ds, rfl⟩
  rw [hd, List.headD_cons] at hed
  exact ⟨_, h.slice hd hbe hed ht (fun hx => ⟨hz hx, hv hx⟩) hval⟩

/-- C44 fails for other chunk shapes: of a 3×4 array in chunks of 2×2, the row 0 is read instead of
row 1. -/
theorem C44_negation : ∃ (file : Bytes) (i : Info) (dims : List Nat) (cell : List Nat → Bytes) (t : Index) (v w : GoVal)
    (blocks blocks' : List DBlock),
    StoredVar noInflate file i (.fixed 1 false false) dims cell [0] t 8 ∧
    getData noInflate 2 noHeap file i (.fixed 1 false false) dims [] none = .ok (v, blocks) ∧
    getData noInflate 2 noHeap file i (.fixed 1 false false) dims [] (some (1, 2)) = .ok (w, blocks') ∧
    w ≠ goSlice 1 2 v ∧ w = goSlice 0 1 v :=
  ⟨sqFile, sqInfo, [3, 4], sqCell, sqIndex, tabulate (.num .u8) [3, 4] sqVal,
    .slice (.slice (.num .u8)) [.slice (.num .u8) [.num .u8 1, .num .u8 2, .num .u8 3, .num .u8 4]],
    sqIndex.chunks.map (Chunk.toD 4), sqIndex.chunks.map (Chunk.toD 4), sqVar,
    by decide +kernel, by decide +kernel, by decide +kernel, by decide +kernel⟩

/-- The hypotheses hold for a 3×2 array with one chunk per row, one of which is missing. -/
example : ∃ v all, getData noInflate 2 noHeap rowFile rowInfo (.fixed 1 false false) [3, 2] [] none = .ok (v, all) ∧
      ∀ b e : Nat, b ≤ e → e ≤ 3 →
        ∃ some', getData noInflate 2 noHeap rowFile rowInfo (.fixed 1 false false) [3, 2] all (some ((b : Int), (e : Int))) =
          .ok (goSlice b e v, some') := by
  obtain ⟨v, all, h1, h2⟩ := C44_chunked_partial rowVar (fuel := 2) (by decide) (by decide +kernel) (.num .u8 false)
    (by rintro ⟨e, he⟩; cases he) rowElems
  exact ⟨v, all, h1, fun b e hb he => (h2 b e hb he (by rintro ⟨e, he⟩; cases he)).2
    (by simp [rowIndexTree, rowLeaf1, rowLeaf2, Index.chunks, Kids.chunks, lexLt])⟩

example : getData noInflate 2 noHeap rowFile rowInfo (.fixed 1 false false) [3, 2] [] (some (1, 3)) =
    .ok (.slice (.slice (.num .u8)) [.slice (.num .u8) [.num .u8 9, .num .u8 9], .slice (.num .u8) [.num .u8 5, .num .u8 6]],
      [⟨.at 338 2, 2, 0, [2, 0]⟩]) := by decide +kernel

/-! ### C47 -/

/-- C47: the values of a variable that is stored in one piece, in the file or in its header, or that
was never written, are the elements at their indices. -/
theorem C47_flat_values_partial (h : FlatVar file i dt dims cell pat) (ht : ElemTy dt base)
    (hz : (∃ e, dt = .vlen 16 false e) → 0 < prod dims)
    (hval : ∀ idx, InRange dims idx → ElemOf heap dt (cell idx) (val idx)) :
    getData inflate fuel heap file i dt dims (i.blocks.map Block.toD) none =
      .ok (tabulate base dims val, i.blocks.map Block.toD) :=
  h.values ht hz hval

/-- What is missing in C29 and C47: an array of sequences with a dimension of length zero cannot be
read. -/
theorem C47_negation_empty : ∃ (i : Info) (dims : List Nat),
    FlatVar [] i (.vlen 16 false (.fixed 1 false false)) dims (fun _ => List.replicate 16 0) [0] ∧
    (∀ idx, InRange dims idx → ElemOf noHeap (.vlen 16 false (.fixed 1 false false)) (List.replicate 16 0) (.slice (.num .u8) [])) ∧
    getData noInflate 0 noHeap [] i (.vlen 16 false (.fixed 1 false false)) dims [] none = .panic :=
  ⟨{}, [0], ⟨rfl, rfl, rfl, by decide, by decide, by decide, by decide, fun _ => rfl, .zero _ rfl rfl (by simp), by decide,
    .inr (.inr ⟨rfl, by decide +kernel⟩)⟩, fun idx _ => .emptySeq .u8 false 0 0 (by decide) (by decide), by decide +kernel⟩

/-- Two big-endian 16-bit numbers behind 3 other bytes. -/
example : getData noInflate 0 noHeap [9, 9, 9, 1, 2, 3, 4] { blocks := [.at 3 4] } (.fixed 2 false true) [2]
    [⟨.at 3 4, 4, 0, []⟩] none = .ok (.slice (.num .u16) [.num .u16 0x102, .num .u16 0x304], [⟨.at 3 4, 4, 0, []⟩]) := by
  decide +kernel

def flatCell : List Nat → Bytes
  | [0] => [1, 2]
  | _ => [3, 4]

example : FlatVar [9, 9, 9, 1, 2, 3, 4] { blocks := [.at 3 4] } (.fixed 2 false true) [2] flatCell [0] :=
  ⟨rfl, rfl, rfl, by decide, by decide, by decide, by decide,
    fun idx => by unfold flatCell; split <;> rfl, .zero _ rfl rfl (by simp), by decide,
    .inl ⟨3, rfl, by unfold At; decide +kernel⟩⟩

/-! ### C48 -/

/-- C48: a chunk that was stored through filters (compression, shuffling, Fletcher-32 sums), some of
which may have been skipped for this chunk, is read as the bytes it was made of. Missing: shuffling
and compressing what is already compressed, which fails for some data (`C48_negation`), and sums that are multiples of 65535
(`C28_negation_sum`). -/
theorem C48_filters_undone_partial {filters : List (Nat × List Nat)} {ch : Chunk} {data out : Bytes}
    (hf : file.length < 2 ^ 63) (hat : At file ch.addr out) (hsize : ch.size = out.length) (hout : out ≠ [])
    (henc : Encoded inflate ch.mask 0 false filters data out) :
    ∃ rest, blockBytes inflate file filters ⟨.at ch.addr ch.size, data.length, ch.mask, ch.offsets⟩ 0 0 = .ok (data ++ rest) :=
  chunkHolds_encoded hf hat hsize hout henc

/-- A stand-in for decompression: a length and a byte that is repeated. -/
def runs : Bytes → Res Bytes
  | n :: x :: _ => .ok (List.replicate n.toNat x)
  | _ => .err .unsupported

/-- C48 fails for data that is shuffled after compression, when compression did not make it smaller.
Here one byte is stored as `[1, 7]`, shuffled as one element of 2 bytes. -/
theorem C48_negation : ∃ (filters : List (Nat × List Nat)) (data z out : Bytes),
    filters = [(1, []), (2, [2])] ∧ runs z = .ok data ∧ out = h5Shuffle 2 z ∧ out ≠ [] ∧
    ∀ rest, blockBytes runs out filters ⟨.at 0 out.length, data.length, 0, [0]⟩ 0 0 ≠ .ok (data ++ rest) := by
  refine ⟨_, [7], [1, 7], [1, 7], rfl, by decide, by decide, by decide, ?_⟩
  have h : blockBytes runs [1, 7] [(1, []), (2, [2])] ⟨.at 0 2, 1, 0, [0]⟩ 0 0 = .err .unsupported := by decide +kernel
  intro rest h'
  exact absurd (h.symm.trans h') (by simp)

/-- Four elements of 2 bytes, shuffled, compressed and with a sum; then the same filters where
compression was skipped. -/
example : Encoded runs 0 0 false [(2, [2]), (1, []), (3, [])] [5, 5, 5, 5, 5, 5, 5, 5] ([8, 5] ++ leEnc 4 (h5Fletcher32 [8, 5])) ∧
    Encoded runs 2 0 false [(2, [2]), (1, []), (3, [])] [1, 2, 3, 4] ([1, 3, 2, 4] ++ leEnc 4 (h5Fletcher32 [1, 3, 2, 4])) := by
  constructor
  · refine .shuffle 0 2 [] _ _ _ (by decide) (by decide) (by decide) ?_
    refine .deflate 1 [] _ _ [8, 5] _ (by decide) (by decide) ?_
    exact .fletcher 2 true [] _ _ _ (by decide) (by decide) (.inr (by decide)) (.inr (by decide)) (.nil _ _ _)
  · refine .shuffle 0 2 [] _ _ _ (by decide) (by decide) (by decide) ?_
    refine .skip 1 false _ _ _ _ (by decide) ?_
    exact .fletcher 2 false [] _ _ _ (by decide) (by decide) (.inr (by decide)) (.inr (by decide)) (.nil _ _ _)

end Verif.H5
