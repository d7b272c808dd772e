import Verif.Lemmas.H5Array
import Verif.Lemmas.H5Value
/-!
Values from the bytes of their elements.
-/
namespace Verif.H5

theorem times_map {α β : Type} (p : P α) (enc : β → Bytes) (val : β → α) (xs : List β) (q : Nat) (rest : Bytes)
    (h : ∀ x ∈ xs, ∀ q rest, p ⟨q, enc x ++ rest⟩ = .ok (val x, ⟨q + (enc x).length, rest⟩)) :
    times p xs.length ⟨q, xs.flatMap enc ++ rest⟩ =
      .ok (xs.map val, ⟨q + (xs.flatMap enc).length, rest⟩) := by
  induction xs generalizing q with
  | nil => rfl
  | cons x xs ih =>
    simp only [List.length_cons, List.flatMap_cons, List.append_assoc, times, P.bind_apply,
      h x List.mem_cons_self, ih _ fun y hy => h y (List.mem_cons_of_mem _ hy), P.pure_apply, List.map_cons,
      List.length_append, Nat.add_assoc]

theorem allocArr_tab {base : GoTy} {p : P GoVal} {dims : List Nat} {cell : List Nat → Bytes} {val : List Nat → GoVal}
    (h : ∀ idx, InRange dims idx → ∀ q rest, p ⟨q, cell idx ++ rest⟩ = .ok (val idx, ⟨q + (cell idx).length, rest⟩))
    (q : Nat) (rest : Bytes) :
    allocArr base p dims ⟨q, rowMajor dims cell ++ rest⟩ =
      .ok (tabulate base dims val, ⟨q + (rowMajor dims cell).length, rest⟩) := by
  induction dims generalizing cell val q rest with
  | nil =>
    have := h [] trivial q rest
    simpa [allocArr, rowMajor, indices, tabulate] using this
  | cons d ds ih =>
    have ht := times_map (allocArr base p ds) (fun i => rowMajor ds fun is => cell (i :: is))
      (fun i => tabulate base ds fun is => val (i :: is)) (List.range d) q rest
      (fun i hi q rest => ih (fun idx hidx => h (i :: idx) ⟨List.mem_range.mp hi, hidx⟩) q rest)
    rw [List.length_range] at ht
    rw [rowMajor_cons]
    simp only [allocArr, P.bind_apply, ht, P.pure_apply, nestTy_eq, tabulate]

theorem allocSeqs_tab {heap : HeapFn} {elem : DT} {dims : List Nat} {cell : List Nat → Bytes} {val : List Nat → GoVal}
    (hp : 0 < prod dims)
    (h : ∀ idx, InRange dims idx → ∀ q rest, allocSeq heap elem ⟨q, cell idx ++ rest⟩ = .ok (val idx, ⟨q + (cell idx).length, rest⟩))
    (q : Nat) (rest : Bytes) :
    allocSeqs heap elem dims ⟨q, rowMajor dims cell ++ rest⟩ =
      .ok (tabulate (.slice (leafTy elem)) dims val, ⟨q + (rowMajor dims cell).length, rest⟩) := by
  have e : ∀ (ds : List Nat), (∀ d ∈ ds, 0 < d) →
      allocSeqs heap elem ds = allocArr (.slice (leafTy elem)) (allocSeq heap elem) ds := by
    intro ds
    induction ds with
    | nil => intro _; rfl
    | cons d ds ih =>
      intro hd
      have h0 : ¬ d = 0 := by have := hd d List.mem_cons_self; omega
      rw [allocSeqs, allocArr, ih fun x hx => hd x (List.mem_cons_of_mem _ hx)]
      simp only [h0, ↓reduceIte]
  rw [e dims (all_pos_of_prod hp)]
  exact allocArr_tab h q rest

theorem leafTy_stored (be : Bool) (k : Kind) : leafTy (storedNum be k) = .num k := by
  simp [leafTy, numKind_stored]

theorem alloc_stored (heap : HeapFn) (be : Bool) (k : Kind) (dims : List Nat) :
    alloc heap (storedNum be k) dims = allocArr (.num k) (allocNum k be) dims := by
  cases k <;> rfl

theorem allocLeaf_stored (heap : HeapFn) (be : Bool) (k : Kind) : allocLeaf heap (storedNum be k) = allocNum k be := by
  simp [allocLeaf, numKind_stored]

theorem numBytes_length (be : Bool) (k : Kind) (bits : Nat) : (numBytes be k bits).length = k.size := by
  cases be <;> simp [numBytes]

theorem len_stored (be : Bool) (k : Kind) : (storedNum be k).len = k.size := by
  cases k <;> rfl

theorem allocNum_stored (be : Bool) (k : Kind) (bits : Nat) (h : bits < 256 ^ k.size) (q : Nat) (rest : Bytes) :
    allocNum k be ⟨q, numBytes be k bits ++ rest⟩ = .ok (.num k bits, ⟨q + (numBytes be k bits).length, rest⟩) := by
  have hl := numBytes_length be k bits
  simp only [allocNum, P.bind_apply, rdN_append k.size _ (numBytes be k bits) _ (by rw [hl]), P.pure_apply, hl]
  cases be
  · simp [numBytes, leDec_leEnc_of_lt h]
  · simp [numBytes, beDec_beEnc_of_lt h]

theorem getString_pad (s : Bytes) (n : Nat) (h : (0 : UInt8) ∉ s) : getString (s ++ List.replicate n 0) = s := by
  cases n with
  | zero => rw [List.replicate_zero, List.append_nil, getString_clean s h]
  | succ n => rw [List.replicate_succ, getString_nul s _ h]

/-- The element parser of a type. -/
theorem alloc_elems {heap : HeapFn} {dt : DT} {base : GoTy} {dims : List Nat} {cell : List Nat → Bytes}
    {val : List Nat → GoVal} (ht : ElemTy dt base) (hz : (∃ e, dt = .vlen 16 false e) → 0 < prod dims)
    (h : ∀ idx, InRange dims idx → ElemOf heap dt (cell idx) (val idx)) (q : Nat) (rest : Bytes) :
    alloc heap dt dims ⟨q, rowMajor dims cell ++ rest⟩ =
      .ok (tabulate base dims val, ⟨q + (rowMajor dims cell).length, rest⟩) := by
  cases ht with
  | num k be =>
    rw [alloc_stored]
    refine allocArr_tab (fun idx hidx q rest => ?_) q rest
    have he := h idx hidx
    generalize hdt : storedNum be k = dt at he
    generalize cell idx = b at he
    generalize val idx = v at he
    cases he with
    | num k' be' bits hb =>
      have h1 := numKind_stored be k
      rw [hdt, numKind_stored] at h1
      simp only [Option.some.injEq, Prod.mk.injEq] at h1
      obtain ⟨rfl, rfl⟩ := h1
      exact allocNum_stored _ _ bits hb q rest
    | _ => cases k <;> cases hdt
  | fixStr n hn =>
    simp only [alloc, allocFixStrs]
    rw [if_neg (by omega)]
    refine allocArr_tab (fun idx hidx q rest => ?_) q rest
    have he := h idx hidx
    generalize hdt : DT.str n = dt at he
    generalize cell idx = b at he
    generalize val idx = v at he
    cases he with
    | fixStr n' s hs h0 =>
      simp only [DT.str.injEq] at hdt
      subst hdt
      have hl : (s ++ List.replicate (n - s.length) (0 : UInt8)).length = n := by simp; omega
      simp only [allocFixStr, P.bind_apply, rdN_append n _ _ _ hl, P.pure_apply, hl, getString_pad s _ h0]
    | num k => cases k <;> cases hdt
    | _ => cases hdt
  | vlenStr e =>
    simp only [alloc]
    refine allocArr_tab (fun idx hidx q rest => ?_) q rest
    have he := h idx hidx
    generalize hdt : DT.vlen 16 true e = dt at he
    generalize cell idx = b at he
    generalize val idx = v at he
    cases he with
    | vlenStr e' addr idx s h1 h2 h3 h4 h5 h6 =>
      have hl : (leEnc 4 s.length ++ (leEnc 8 addr ++ leEnc 4 idx)).length = 16 := by simp
      have hr := readDescriptor_ok s.length addr idx q rest h2 h3 h4
      simp only [descriptor, List.append_assoc] at hr
      simp only [allocVlenStr, P.bind_apply, List.append_assoc, hr, show ¬ s.length = 0 from by omega, ↓reduceIte, h6,
        P.lift, P.pure_apply, Option.getD_some, getString_clean s h5]
      simp
    | emptyStr e' addr idx h3 h4 =>
      have hr := readDescriptor_ok 0 addr idx q rest (by decide) h3 h4
      simp only [descriptor, List.append_assoc] at hr
      simp only [allocVlenStr, P.bind_apply, List.append_assoc, hr, ↓reduceIte, P.pure_apply]
      simp
    | num k => cases k <;> cases hdt
    | _ => cases hdt
  | seq k be =>
    simp only [alloc]
    rw [← leafTy_stored be k]
    refine allocSeqs_tab (hz ⟨_, rfl⟩) (fun idx hidx q rest => ?_) q rest
    have he := h idx hidx
    generalize hdt : DT.vlen 16 false (storedNum be k) = dt at he
    generalize cell idx = b at he
    generalize val idx = v at he
    cases he with
    | seq k' be' addr idx xs h1 h2 h3 h4 h5 h6 =>
      simp only [DT.vlen.injEq, true_and] at hdt
      have hk := numKind_stored be k
      rw [hdt, numKind_stored] at hk
      simp only [Option.some.injEq, Prod.mk.injEq] at hk
      obtain ⟨rfl, rfl⟩ := hk
      have hr := readDescriptor_ok xs.length addr idx q rest h2 h3 h4
      simp only [descriptor, List.append_assoc] at hr
      have ht := times_map (allocNum k' be') (numBytes be' k') (GoVal.num k') xs 0 []
        (fun x hx q rest => allocNum_stored be' k' x (h5 x hx) q rest)
      rw [List.append_nil] at ht
      simp only [allocSeq, P.bind_apply, List.append_assoc, hr, show ¬ xs.length = 0 from by omega, ↓reduceIte, h6,
        P.lift, P.pure_apply, allocLeaf_stored, onBytes, ht, leafTy_stored]
      simp
    | emptySeq k' be' addr idx h3 h4 =>
      simp only [DT.vlen.injEq, true_and] at hdt
      have hk := numKind_stored be k
      rw [hdt, numKind_stored] at hk
      simp only [Option.some.injEq, Prod.mk.injEq] at hk
      obtain ⟨rfl, rfl⟩ := hk
      have hr := readDescriptor_ok 0 addr idx q rest (by decide) h3 h4
      simp only [descriptor, List.append_assoc] at hr
      have hrd := rdN_append k'.size 0 (List.replicate k'.size (0 : UInt8)) [] (by simp)
      rw [List.append_nil] at hrd
      simp only [allocSeq, P.bind_apply, List.append_assoc, hr, ↓reduceIte,
        P.lift, P.pure_apply, allocLeaf_stored, len_stored, onBytes, allocNum, hrd, leafTy_stored]
      simp
    | num k' => cases k' <;> cases hdt
    | _ => cases hdt

/-! ### Ranges of rows -/

/-- The index of an element of `v[b:]` in `v`. -/
def shiftIx (b : Nat) : List Nat → List Nat
  | i :: is => (b + i) :: is
  | [] => []

theorem range_slice {b e d : Nat} (h1 : b ≤ e) (h2 : e ≤ d) :
    ((List.range d).drop b).take (e - b) = (List.range (e - b)).map (b + ·) := by
  apply List.ext_getElem?
  intro k
  by_cases hk : k < e - b
  · rw [List.getElem?_take_of_lt hk, List.getElem?_drop, List.getElem?_range (by omega), List.getElem?_map,
      List.getElem?_range hk]
    rfl
  · rw [List.getElem?_eq_none (by simp; omega), List.getElem?_eq_none (by simp; omega)]

theorem tabulate_slice (base : GoTy) (d : Nat) (ds : List Nat) (val : List Nat → GoVal) {b e : Nat} (h1 : b ≤ e) (h2 : e ≤ d) :
    goSlice b e (tabulate base (d :: ds) val) = tabulate base ((e - b) :: ds) fun idx => val (shiftIx b idx) := by
  simp only [tabulate, goSlice, ← List.map_drop, ← List.map_take, range_slice h1 h2, List.map_map]
  rfl

theorem rowMajor_slice {d : Nat} {ds : List Nat} {cell : List Nat → Bytes} {n b e : Nat}
    (hc : ∀ idx, (cell idx).length = n) (h1 : b ≤ e) (h2 : e ≤ d) :
    ((rowMajor (d :: ds) cell).drop (b * (prod ds * n))).take ((e - b) * (prod ds * n)) =
      rowMajor ((e - b) :: ds) fun idx => cell (shiftIx b idx) := by
  rw [rowMajor_cons, flatMap_slice (n := prod ds * n) (fun i _ => rowMajor_length fun idx _ => hc _), range_slice h1 h2,
    List.flatMap_map, rowMajor_cons]
  rfl

/-! ### Values -/

section
variable {inflate : Bytes → Res Bytes} {file : Bytes} {i : Info} {dt : DT} {dims : List Nat}
  {cell : List Nat → Bytes} {pat : Bytes} {t : Index} {addr : Nat}

theorem rowMajor_nil {dims : List Nat} {cell : List Nat → Bytes} (h : prod dims = 0) : rowMajor dims cell = [] := by
  have : indices dims = [] := List.length_eq_zero_iff.mp (by rw [indices_length, h])
  rw [rowMajor, this, List.flatMap_nil]

/-- A variable without elements has no bytes. -/
theorem StoredVar.empty (h : StoredVar inflate file i dt dims cell pat t addr) {fuel : Nat} {cached : List DBlock} {sl : Sl}
    (hp : prod dims = 0) (ho : StripesInOrder dims i.layout ∨ needsLayoutReader dims i.layout = .ok false)
    (hsl : ∀ x y, sl = some (x, y) → x ≤ y) :
    dataBytes inflate fuel file i dt dims cached sl = .ok ([], cached) := by
  have hg0 := grid_zero h.geo.len h.geo.lay hp
  have hsz := h.geo.calc
  rw [hg0, Nat.zero_mul] at hsz
  have hrec : recordBytes inflate fuel file i dt dims cached sl = .ok ([], 0, cached) := by
    unfold recordBytes
    simp only [hsz, Res.bind_ok, ↓reduceIte, Res.pure_eq]
  have hp64 : prod64 dims * dt.len % 2 ^ 64 = 0 := by
    rw [prod64_mod, hp, Nat.zero_mod, Nat.zero_mul, Nat.zero_mod]
  have hend : ∀ lay b, needsLayoutReader dims i.layout = .ok lay →
      (if lay = true then layoutBytes dims i.layout dt.len [] else Res.ok []) = .ok b → b = [] →
      dataBytes inflate fuel file i dt dims cached sl = .ok ([], cached) := by
    intro lay b hl hb hb0
    subst hb0
    unfold dataBytes
    cases lay with
    | _ =>
      simp only [Bool.false_eq_true, ↓reduceIte] at hb
      simp only [hsz, hrec, hl, Res.bind_ok, Res.pure_eq, hb, hp64, ite_self, Nat.lt_irrefl, ↓reduceIte, Bool.false_eq_true]
      cases sl with
      | none => rfl
      | some xy =>
        obtain ⟨x, y⟩ := xy
        have := hsl x y rfl
        simp only
        rw [if_neg (by omega)]
        rw [List.take_nil]
  rcases needs_cases h.geo with ⟨hl, -⟩ | hl
  · exact hend false [] hl rfl rfl
  · have ho' : StripesInOrder dims i.layout := by
      rcases ho with ho | ho
      · exact ho
      · rw [hl] at ho; cases ho
    have hlb := layoutBytes_rowMajor h.geo h.cells ho'
    have : indices (gridShape dims i.layout) = [] := List.length_eq_zero_iff.mp (by rw [indices_length, hg0])
    rw [this, List.flatMap_nil, rowMajor_nil hp] at hlb
    exact hend true [] hl (by rw [if_pos rfl]; exact hlb) rfl

/-- The bytes of a whole variable start with its elements in their order. -/
theorem StoredVar.whole (h : StoredVar inflate file i dt dims cell pat t addr) {fuel : Nat} (hfuel : t.depth ≤ fuel)
    (ho : StripesInOrder dims i.layout) :
    ∃ rest blocks, dataBytes inflate fuel file i dt dims [] none = .ok (rowMajor dims cell ++ rest, blocks) ∧
      (blocks = t.chunks.map (Chunk.toD (prod i.layout * dt.len)) ∨ prod dims = 0 ∧ blocks = []) := by
  rcases Nat.eq_zero_or_pos (prod dims) with hp | hp
  · refine ⟨[], [], ?_, .inr ⟨hp, rfl⟩⟩
    rw [h.empty hp (.inl ho) (by simp), rowMajor_nil hp]
    rfl
  · rcases needs_cases h.geo with ⟨hl, hin⟩ | hl
    · have hb := h.blocks (fuel := fuel) (first := 0) (last := prod dims * dt.len) hfuel hp (.inl rfl)
      have hlt := h.size
      have hr : ∀ ch ∈ t.chunks, rowIndex dims ch.offsets * dt.len < prod dims * dt.len := by
        intro ch hch
        obtain ⟨h1, h2, -⟩ := h.coord hch
        have hr := rowIndex_lt (inRange_mulIx h.geo.len h.geo.lay h1)
        rw [← h2] at hr
        exact Nat.mul_lt_mul_of_pos_right hr h.geo.dt
      have hL : 0 < prod i.layout * dt.len := Nat.mul_pos (prod_pos_of h.geo.lay) h.geo.dt
      have hfil : t.chunks.filter (overlaps (fun o => rowIndex dims o * dt.len) (prod i.layout * dt.len) 0 (prod dims * dt.len)) =
          t.chunks := by
        rw [List.filter_eq_self]
        intro ch hch
        have := hr ch hch
        simp only [overlaps, Bool.and_eq_true, decide_eq_true_eq]
        omega
      rw [hfil] at hb
      have := h.inline (sl := none) hl hin hp trivial hb (fun _ hc => hc) h.distinct (fun _ hc _ => hc)
        ((List.pairwise_of_forall (l := t.chunks) (R := fun _ _ => True) fun _ _ => trivial).imp_of_mem (by
          intro a b ha _ _ hle
          have := hr a ha
          simp only [rangeOf] at hle
          omega))
      refine ⟨[], _, this.trans ?_, .inl rfl⟩
      simp only [rangeOf, Nat.sub_zero, List.drop_zero, List.append_nil]
      rw [List.take_of_length_le (by rw [rowMajor_length fun idx _ => h.cells idx]; exact Nat.le_refl _)]
    · obtain ⟨rest, hr⟩ := h.layout hl hp hfuel ho
      exact ⟨rest, _, hr, .inl rfl⟩

/-- The bytes of a range of rows. -/
theorem StoredVar.rows (h : StoredVar inflate file i dt dims cell pat t addr) {fuel d : Nat} {ds : List Nat}
    (hfuel : t.depth ≤ fuel) (hlay : needsLayoutReader dims i.layout = .ok false) (hd : dims = d :: ds)
    {cached : List DBlock}
    (hcached : cached = [] ∨ cached = t.chunks.map (Chunk.toD (prod i.layout * dt.len)) ∧
      t.chunks.Pairwise fun a b => lexLt a.offsets b.offsets)
    {b e : Nat} (h1 : b ≤ e) (h2 : e ≤ d) :
    ∃ blocks, dataBytes inflate fuel file i dt dims cached (some ((b : Int), (e : Int))) =
      .ok (rowMajor ((e - b) :: ds) fun idx => cell (shiftIx b idx), blocks) := by
  rcases Nat.eq_zero_or_pos (prod dims) with hp | hp
  · refine ⟨cached, ?_⟩
    rw [h.empty hp (.inr hlay) (by rintro x y ⟨⟩; omega)]
    congr 2
    subst hd
    rw [rowMajor_nil]
    rcases Nat.mul_eq_zero.mp hp with h0 | h0
    · rw [prod, show e - b = 0 from by omega, Nat.zero_mul]
    · rw [prod, h0, Nat.mul_zero]
  · obtain ⟨-, hin⟩ : needsLayoutReader dims i.layout = .ok false ∧ Inline dims i.layout := by
      rcases needs_cases h.geo with h3 | h3
      · exact h3
      · rw [hlay] at h3; cases h3
    subst hd
    have hd0 : 0 < d := all_pos_of_prod hp d List.mem_cons_self
    have hq : prod (d :: ds) * dt.len / d = prod ds * dt.len := by
      rw [prod, Nat.mul_assoc, Nat.mul_div_cancel_left _ hd0]
    have hsl : SliceOK (d :: ds) (some ((b : Int), (e : Int))) := ⟨d, ds, rfl, hd0, by omega, by omega, by omega⟩
    have hrange : rangeOf (d :: ds) (prod (d :: ds) * dt.len) (some ((b : Int), (e : Int))) =
        (b * (prod ds * dt.len), e * (prod ds * dt.len)) := by
      simp only [rangeOf, List.headD_cons, hq, Int.toNat_natCast]
    have hfin : ∀ chs : List Chunk,
        (((rowMajor (d :: ds) cell).drop (b * (prod ds * dt.len))).take (e * (prod ds * dt.len) - b * (prod ds * dt.len)),
          chs.map (Chunk.toD (prod i.layout * dt.len))) =
        (rowMajor ((e - b) :: ds) fun idx => cell (shiftIx b idx), chs.map (Chunk.toD (prod i.layout * dt.len))) := by
      intro chs
      rw [← Nat.mul_sub_right_distrib, rowMajor_slice h.cells h1 h2]
    have h0 : ∃ chs : List Chunk, blocksOf fuel file i (d :: ds) (b * (prod ds * dt.len)) (e * (prod ds * dt.len)) cached =
          .ok (chs.map (Chunk.toD (prod i.layout * dt.len))) ∧ (∀ ch ∈ chs, ch ∈ t.chunks) ∧ (chs.map (·.offsets)).Nodup ∧
        (∀ ch ∈ t.chunks, overlaps (fun o => rowIndex (d :: ds) o * dt.len) (prod i.layout * dt.len)
          (b * (prod ds * dt.len)) (e * (prod ds * dt.len)) ch = true → ch ∈ chs) ∧
        chs.Pairwise fun x y => e * (prod ds * dt.len) ≤ rowIndex (d :: ds) x.offsets * dt.len →
          e * (prod ds * dt.len) ≤ rowIndex (d :: ds) y.offsets * dt.len := by
      by_cases hc0 : cached = []
      · subst hc0
        refine ⟨_, h.blocks hfuel hp (.inr hin), fun ch hch => (List.mem_filter.mp hch).1, ?_, fun ch hch ho =>
          List.mem_filter.mpr ⟨hch, ho⟩, ?_⟩
        · exact h.distinct.sublist ((List.filter_sublist).map _)
        · refine (List.pairwise_of_forall (R := fun _ _ => True) fun _ _ => trivial).imp_of_mem ?_
          intro x y hx _ _ hle
          have := (List.mem_filter.mp hx).2
          simp only [overlaps, Bool.and_eq_true, decide_eq_true_eq] at this
          omega
      · obtain ⟨hc, hsorted⟩ := hcached.resolve_left hc0
        refine ⟨t.chunks, ?_, fun ch hch => hch, h.distinct, fun ch hch _ => hch, ?_⟩
        · rw [← hc]
          cases cached with
          | nil => exact absurd rfl hc0
          | cons => rfl
        · refine hsorted.imp_of_mem ?_
          intro x y hx hy hlt hle
          obtain ⟨hx1, hx2, -⟩ := h.coord hx
          obtain ⟨hy1, hy2, -⟩ := h.coord hy
          have hxr := inRange_mulIx h.geo.len h.geo.lay hx1
          have hyr := inRange_mulIx h.geo.len h.geo.lay hy1
          rw [← hx2] at hxr
          rw [← hy2] at hyr
          exact Nat.le_trans hle (Nat.mul_le_mul_right _ (Nat.le_of_lt (rowIndex_lex hxr hyr.length hlt)))
    obtain ⟨chs, g1, g2, g3, g4, g5⟩ := h0
    have := h.inline (sl := some ((b : Int), (e : Int))) (fuel := fuel) (cached := cached) hlay hin hp hsl (chs := chs)
      (by rw [hrange]; exact g1) g2 g3 (by rw [hrange]; exact g4) (by rw [hrange]; exact g5)
    rw [hrange] at this
    exact ⟨_, this.trans (by rw [hfin chs])⟩

/-- The values of a whole variable. -/
theorem StoredVar.values (h : StoredVar inflate file i dt dims cell pat t addr) {fuel : Nat} {heap : HeapFn} {base : GoTy}
    {val : List Nat → GoVal} (hfuel : t.depth ≤ fuel) (ho : StripesInOrder dims i.layout)
    (ht : ElemTy dt base) (hz : (∃ e, dt = .vlen 16 false e) → 0 < prod dims)
    (hval : ∀ idx, InRange dims idx → ElemOf heap dt (cell idx) (val idx)) :
    ∃ blocks, getData inflate fuel heap file i dt dims [] none = .ok (tabulate base dims val, blocks) ∧
      (blocks = t.chunks.map (Chunk.toD (prod i.layout * dt.len)) ∨ prod dims = 0 ∧ blocks = []) := by
  obtain ⟨rest, blocks, h1, h2⟩ := h.whole hfuel ho
  refine ⟨blocks, ?_, h2⟩
  unfold getData
  simp only [h1, Res.bind_ok, sliceDims, onBytes, alloc_elems ht hz hval, Res.pure_eq]

/-- The values of a range of rows. -/
theorem StoredVar.slice (h : StoredVar inflate file i dt dims cell pat t addr) {fuel d : Nat} {ds : List Nat}
    {heap : HeapFn} {base : GoTy} {val : List Nat → GoVal}
    (hfuel : t.depth ≤ fuel) (hlay : needsLayoutReader dims i.layout = .ok false) (hd : dims = d :: ds)
    {cached : List DBlock}
    (hcached : cached = [] ∨ cached = t.chunks.map (Chunk.toD (prod i.layout * dt.len)) ∧
      t.chunks.Pairwise fun a b => lexLt a.offsets b.offsets)
    {b e : Nat} (h1 : b ≤ e) (h2 : e ≤ d)
    (ht : ElemTy dt base) (hz : (∃ e, dt = .vlen 16 false e) → 0 < prod dims ∧ b < e)
    (hval : ∀ idx, InRange dims idx → ElemOf heap dt (cell idx) (val idx)) :
    ∃ blocks, getData inflate fuel heap file i dt dims cached (some ((b : Int), (e : Int))) =
      .ok (goSlice b e (tabulate base dims val), blocks) := by
  obtain ⟨blocks, h3⟩ := h.rows hfuel hlay hd hcached h1 h2
  refine ⟨blocks, ?_⟩
  have hdl := h.geo.dlt d (by rw [hd]; exact List.mem_cons_self)
  subst hd
  have hs : sliceDims (d :: ds) (some ((b : Int), (e : Int))) = (e - b) :: ds := by
    simp only [sliceDims, u64_sub h1 (show e < 2 ^ 64 by omega)]
  have ha := alloc_elems (heap := heap) (dims := (e - b) :: ds) (cell := fun idx => cell (shiftIx b idx))
    (val := fun idx => val (shiftIx b idx)) ht
    (fun he => by
      obtain ⟨g1, g2⟩ := hz he
      exact Nat.mul_pos (by omega) (Nat.pos_of_mul_pos_left g1))
    (fun idx hidx => hval _ (by
      cases idx with
      | nil => exact hidx
      | cons x xs =>
        simp only [InRange, shiftIx] at hidx ⊢
        exact ⟨by omega, hidx.2⟩)) 0 []
  rw [List.append_nil] at ha
  unfold getData
  simp only [h3, Res.bind_ok, hs, onBytes, ha, Res.pure_eq, tabulate_slice base d ds val h1 h2]

end

end Verif.H5
