import Verif.Lemmas.H5Typed
import Verif.Lemmas.H5Flat
import Verif.Lemmas.H5Elem
import Verif.Model.H5TypedApi
/-!
Slices of values of any type, and what `getDataT` returns for stored variables.
-/
namespace Verif.H5

theorem flatMap_rows {d w : Nat} {b : Nat → Bytes} (hb : ∀ i, i < d → (b i).length = w) {x y : Nat} (h1 : x ≤ y)
    (h2 : y ≤ d) :
    (((List.range d).flatMap b).drop (x * w)).take ((y - x) * w) = (List.range (y - x)).flatMap fun i => b (x + i) := by
  obtain ⟨m, rfl⟩ : ∃ m, y = x + m := ⟨y - x, by omega⟩
  obtain ⟨k, rfl⟩ : ∃ k, d = x + m + k := ⟨d - (x + m), by omega⟩
  have e : (List.range (x + m + k)).flatMap b = (List.range x).flatMap b ++
      ((List.range m).flatMap (fun i => b (x + i)) ++ (List.range k).flatMap fun i => b (x + m + i)) := by
    rw [List.range_add, List.range_add, List.flatMap_append, List.flatMap_append, List.flatMap_map, List.flatMap_map,
      List.append_assoc]
  have l1 := flatMap_len (n := x) (b := b) fun i hi => hb i (by omega)
  have l2 := flatMap_len (n := m) (b := fun i => b (x + i)) fun i hi => hb (x + i) (by omega)
  rw [e, ← l1, List.drop_left, Nat.add_sub_cancel_left, ← l2, List.take_left]

theorem map_rows {d : Nat} {v : Nat → TVal} {x y : Nat} (h1 : x ≤ y) (h2 : y ≤ d) :
    (((List.range d).map v).drop x).take (y - x) = (List.range (y - x)).map fun i => v (x + i) := by
  apply List.ext_getElem
  · simp; omega
  · intro i h3 h4
    simp

theorem Shown.slice {heap : HeapFn} {dt : DT} {dims : List Nat} {b : Bytes} {v : TVal} (h : Shown heap dt dims b v)
    {d : Nat} {ds : List Nat} (hd : dims = d :: ds) {x y : Nat} (h1 : x ≤ y) (h2 : y ≤ d) (hz : IsSeq dt → x < y) :
    Shown heap dt ((y - x) :: ds) ((b.drop (x * (prod ds * dt.len))).take ((y - x) * (prod ds * dt.len)))
      (sliceV x y v) := by
  induction h generalizing d ds with
  | chars d' s hs h0 =>
    obtain ⟨rfl, rfl⟩ := List.cons.inj hd
    have e : ((s ++ List.replicate (d' - s.length) (0 : UInt8)).drop (x * (prod [] * (DT.str 1).len))).take
        ((y - x) * (prod [] * (DT.str 1).len)) =
        (s.drop x).take (y - x) ++ List.replicate (y - x - ((s.drop x).take (y - x)).length) 0 := by
      simp only [prod, DT.len, Nat.mul_one]
      apply List.ext_getElem?
      intro i
      simp only [List.getElem?_take, List.getElem?_drop, List.getElem?_append, List.length_take, List.length_drop,
        List.getElem?_replicate]
      have hs' : s.length ≤ x + i → s[x + i]? = none := fun h => by simpa using h
      repeat' split
      all_goals first | rfl | omega | (exact (hs' (by omega)).symm) | exact hs' (by omega)
    rw [e]
    refine .chars _ _ (by simp; omega) ?_
    exact fun hm => h0 (List.mem_of_mem_drop (List.mem_of_mem_take hm))
  | enum be k ns vs dims b v hk hs ih =>
    have := ih hd h2 (by intro hq; cases k <;> exact hq.elim)
    rw [len_stored] at this
    rw [show (DT.enum k.size (storedNum be k) ns vs).len = k.size from rfl]
    exact .enum be k ns vs _ _ _ hk this
  | array len ad e dims b v hl hp hs ih =>
    subst hd
    have := ih (d := d) (ds := ds ++ ad) rfl h2 hz
    have e1 : prod (ds ++ ad) * e.len = prod ds * (DT.array len ad e).len := by
      rw [prod_append, Nat.mul_assoc, DT.len, hl]
    rw [e1] at this
    exact .array len ad e _ _ _ hl hp this
  | rows dt d' ds' b v hb hd' hs ih =>
    obtain ⟨rfl, rfl⟩ := List.cons.inj hd
    rw [flatMap_rows (fun i hi => (hs i hi).length) h1 h2, sliceV, map_rows h1 h2]
    refine .rows dt _ _ _ _ hb ?_ fun i hi => hs _ (by omega)
    rintro ⟨n, e, rfl⟩
    have := hz trivial
    omega
  | _ => cases hd

theorem goTy_by {dt : DT} (h : ByElement dt) (dims : List Nat) : goTy dt dims = sliceTy (goTy dt []) dims := by
  induction dims with
  | nil => rfl
  | cons d ds ih => rw [goTy_cons h, ih, sliceTy]

/-- Elements at their indices. -/
theorem Shown.table {heap : HeapFn} {dt : DT} (hb : ByElement dt) {dims : List Nat} (hz : IsSeq dt → ∀ d ∈ dims, 0 < d)
    {cell : List Nat → Bytes} {val : List Nat → TVal}
    (h : ∀ idx, InRange dims idx → Shown heap dt [] (cell idx) (val idx)) :
    Shown heap dt dims (rowMajor dims cell) (tabulateT (goTy dt []) dims val) := by
  induction dims generalizing cell val with
  | nil =>
    have : rowMajor [] cell = cell [] := by simp [rowMajor, indices]
    rw [this]
    exact h [] trivial
  | cons d ds ih =>
    rw [rowMajor_cons, tabulateT, ← goTy_by hb]
    refine .rows dt d ds _ _ hb ?_ fun i hi => ih (fun hq x hx => hz hq x (List.mem_cons_of_mem _ hx)) fun idx hidx =>
      h _ ⟨hi, hidx⟩
    rintro ⟨n, e, rfl⟩
    exact hz trivial d List.mem_cons_self

/-! ### Stored variables -/

section
variable {cast : DT → Res Unit} {inflate : Bytes → Res Bytes} {file : Bytes} {i : Info} {dt : DT} {dims : List Nat}
  {cell : List Nat → Bytes} {pat : Bytes} {v : TVal} {t : Index} {addr : Nat} {fuel : Nat}

theorem getDataT_of {s : Src} {cached blocks : List DBlock} {sl : Sl} {b rest : Bytes}
    (hb : dataBytes s.inflate s.fuel s.file i dt dims cached sl = .ok (b ++ rest, blocks))
    (hs : Shown (heapLookup s.file) dt (sliceDims dims sl) b v) (hl : Legible cast dt) :
    getDataT cast s i dt dims cached sl = .ok (v, blocks, typeAfter dt (sliceDims dims sl)) := by
  unfold getDataT
  simp only [hb, Res.bind_ok, onBytes, hs.alloc hl, Res.pure_eq]

theorem FlatVar.all (h : FlatVar file i dt dims cell pat) :
    dataBytes inflate fuel file i dt dims (i.blocks.map Block.toD) none =
      .ok (rowMajor dims cell ++ [], i.blocks.map Block.toD) := by
  have hrl := rowMajor_length (dims := dims) (cell := cell) (n := dt.len) fun idx _ => h.cells idx
  rw [List.append_nil]
  rcases Nat.eq_zero_or_pos (prod dims) with hp | hp
  · rw [h.empty hp (by simp), rowMajor_nil hp]
  · rw [h.bytes hp (sl := none) trivial]
    simp only [rangeOf, List.drop_zero, Nat.sub_zero]
    rw [← hrl, List.take_length]

theorem FlatVar.part (h : FlatVar file i dt dims cell pat) {d : Nat} {ds : List Nat} (hd : dims = d :: ds) {b e : Nat}
    (h1 : b ≤ e) (h2 : e ≤ d) :
    dataBytes inflate fuel file i dt dims (i.blocks.map Block.toD) (some ((b : Int), (e : Int))) =
      .ok (((rowMajor dims cell).drop (b * (prod ds * dt.len))).take ((e - b) * (prod ds * dt.len)) ++ [],
        i.blocks.map Block.toD) := by
  have hdl := h.dlt d (by rw [hd]; exact List.mem_cons_self)
  rw [List.append_nil]
  rcases Nat.eq_zero_or_pos (prod dims) with hp | hp
  · rw [h.empty hp (by rintro x y ⟨⟩; omega), rowMajor_nil hp]
    simp
  · subst hd
    have hd0 : 0 < d := all_pos_of_prod hp d List.mem_cons_self
    have hq : prod (d :: ds) * dt.len / d = prod ds * dt.len := by
      rw [prod, Nat.mul_assoc, Nat.mul_div_cancel_left _ hd0]
    rw [h.bytes hp (sl := some ((b : Int), (e : Int))) ⟨d, ds, rfl, hd0, by omega, by omega, by omega⟩]
    simp only [rangeOf, List.headD_cons, hq, Int.toNat_natCast]
    rw [← Nat.mul_sub_right_distrib]

theorem sliceDims_rows {d : Nat} {ds : List Nat} {b e : Nat} (h1 : b ≤ e) (h2 : e < 2 ^ 64) :
    sliceDims (d :: ds) (some ((b : Int), (e : Int))) = (e - b) :: ds := by
  simp only [sliceDims, u64_sub h1 h2]

end

/-! ### Attributes -/

theorem attrRawT_data {cast : DT → Res Unit} {heap : HeapFn} {a : Attr} {b rest : Bytes} {v : TVal} (fill : Bytes)
    (hd : a.data = .df (b ++ rest)) (hb : b.length < 2 ^ 64) (hs : Shown heap a.dt a.dims b v) (hl : Legible cast a.dt) :
    attrRawT cast heap fill a = .ok v := by
  have e : dataSize a.dims * a.dt.len % 2 ^ 64 = b.length := by
    rw [dataSize_eq, ← hs.length, Nat.mod_eq_of_lt hb]
  have h := hs.alloc hl 0 []
  rw [List.append_nil] at h
  unfold attrRawT
  rw [hd]
  simp only [e, List.append_assoc, List.take_left, onBytes, h, Res.map]

theorem attrRawT_none {cast : DT → Res Unit} {heap : HeapFn} {a : Attr} {v : TVal} (fill : Bytes)
    (hs : Shown heap a.dt a.dims [] v) (hl : Legible cast a.dt) :
    attrRawT cast heap fill { a with data := .none } = .ok v := by
  have hz := hs.length
  have e : dataSize a.dims * a.dt.len % 2 ^ 64 = 0 := by
    rw [dataSize_eq, ← hz]
    rfl
  have h := hs.alloc hl 0 []
  rw [List.append_nil] at h
  unfold attrRawT
  simp only [e, fillStream, List.range_zero, List.map_nil, onBytes, h, Res.map]

theorem Shown.not_nil {heap : HeapFn} {dt : DT} {dims : List Nat} {b : Bytes} {v : TVal} (h : Shown heap dt dims b v) :
    v ≠ .nil := by
  rintro rfl
  exact h.ty_ne rfl

theorem AttrShown.not_nil {heap : HeapFn} {a : Attr} {v : TVal} (h : AttrShown heap a v) : v ≠ .nil := by
  cases h with
  | text s _ h => rw [h]; simp
  | data b rest _ _ h => exact h.not_nil
  | empty _ h => exact h.not_nil

/-- What is kept for an attribute. -/
theorem AttrShown.parse {cast : DT → Res Unit} {heap : HeapFn} {a : Attr} {v : TVal} (h : AttrShown heap a v)
    (hl : Legible cast a.dt) {i : Info} {pat : Bytes} (hf : attrFill i = .ok pat) :
    parseAttrT cast heap i a = .ok (match a.data with | .none => .nil | _ => v) := by
  cases h with
  | text s hd hv => simp only [parseAttrT, hd, hv]
  | data b rest hd hb hs =>
    have := attrRawT_data pat hd hb hs hl
    simp only [parseAttrT, hd, hf, this]
  | empty hd hs => simp only [parseAttrT, hd]

theorem undoScalarT_eq {v : TVal} (h1 : ∀ n x, v ≠ .compound [n] [x]) {heap : HeapFn} {a : Attr}
    (h : AttrShown heap a v) : undoScalarT v = oneOut v := by
  have key : ∀ {dt : DT} {dims : List Nat} {b : Bytes}, Shown heap dt dims b v → undoScalarT v = oneOut v := by
    intro dt dims b hs
    induction hs with
    | enum be k ns vs dims b v hk hs ih =>
      generalize hdt : storedNum be k = dt at hs
      cases hs with
      | num => rfl
      | rows dt d ds b v =>
        match d with
        | 0 => rfl
        | 1 => rfl
        | d + 2 =>
          rw [show (List.range (d + 2)).map v = v 0 :: v 1 :: (List.range d).map (fun i => v (i + 2)) by
            rw [List.range_succ_eq_map, List.range_succ_eq_map]; simp [Function.comp_def]]
          rfl
      | _ => cases k <;> cases hdt
    | array len ad e dims b v hl hp hs ih => exact ih h1 h
    | compound ms ts vs b hm hv h2 h3 =>
      unfold undoScalarT oneOut
      split
      · rename_i h; cases h
      · rename_i h; cases h
      · rename_i h; cases h
      · rename_i n x h
        exact absurd h (h1 n x)
      · rfl
    | rows dt d ds b v =>
      match d with
      | 0 => rfl
      | 1 => rfl
      | d + 2 =>
        rw [show (List.range (d + 2)).map v = v 0 :: v 1 :: (List.range d).map (fun i => v (i + 2)) by
          rw [List.range_succ_eq_map, List.range_succ_eq_map]; simp [Function.comp_def]]
        rfl
    | seq e addr idx n b v =>
      match n with
      | 0 => rfl
      | 1 => rfl
      | n + 2 =>
        rw [show (List.range (n + 2)).map v = v 0 :: v 1 :: (List.range n).map (fun i => v (i + 2)) by
          rw [List.range_succ_eq_map, List.range_succ_eq_map]; simp [Function.comp_def]]
        rfl
    | _ => rfl
  cases h with
  | text s _ hv => rw [hv]; rfl
  | data b rest _ _ hs => exact key hs
  | empty _ hs => exact key hs

/-- What is shown for an attribute. -/
theorem AttrShown.shown {cast : DT → Res Unit} {heap : HeapFn} {a : Attr} {v : TVal} (h : AttrShown heap a v)
    (hl : Legible cast a.dt) (h1 : ∀ n x, v ≠ .compound [n] [x]) :
    shownAttr cast heap a (match a.data with | .none => .nil | _ => v) = .ok (oneOut v) := by
  rw [← undoScalarT_eq h1 h]
  have hn := h.not_nil
  cases h with
  | text s hd hv => simp only [hd, hv, shownAttr]
  | data b rest hd hb hs =>
    rw [hd]
    cases v <;> first | rfl | exact absurd rfl hn
  | empty hd hs =>
    rw [hd]
    simp only [shownAttr, attrRawT_none [0] hs hl]

end Verif.H5
