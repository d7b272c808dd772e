import Verif.Lemmas.H5ApiFile
import Verif.Spec.H5Slices
/-!
Slices of variables of a written file.
-/
namespace Verif.H5

/-! ### Shapes -/

theorem extents_rect {base : GoTy} {leaf : GoVal → Prop} {dims : List Nat} {v : GoVal}
    (hv : Rect base leaf dims v) (hpos : ∀ d ∈ dims.dropLast, d ≠ 0) :
    extents dims.length v = dims := by
  induction dims generalizing v with
  | nil => rfl
  | cons d ds ih =>
    obtain ⟨xs, rfl, hl, hx⟩ := hv
    cases xs with
    | nil =>
      cases ds with
      | nil =>
        simp only [List.length_nil] at hl
        subst hl
        rfl
      | cons d' ds =>
        exact absurd hl.symm (hpos d (by simp))
    | cons x xs =>
      simp only [List.length_cons] at hl ⊢
      rw [extents, hl, ih (hx x (by simp))]
      intro y hy
      refine hpos y ?_
      cases ds with
      | nil => simp at hy
      | cons d' ds => simp [hy]

theorem VarOK.common {n : Nat} {v : GoVal} (h : VarOK n v) : Common v := by
  cases h with
  | plain _ _ h =>
    cases h with
    | num k dims v hv => exact rect_common (fun x ⟨_, e, _⟩ => by rw [e]; exact trivial) hv
    | str s => exact trivial
  | strs dims v hv => exact rect_common (fun x ⟨_, e, _⟩ => by rw [e]; exact trivial) hv
  | rows k dims v hv =>
    exact rect_common (fun x hx => by obtain ⟨xs, e, -⟩ := hx; rw [e]; exact trivial) hv

theorem VarAny.ok {n : Nat} {v : GoVal} (h : VarAny n v) (hc : Common v) : VarOK n v := by
  cases h with
  | common _ _ h => exact h
  | user => exact hc.elim

/-- A value that may be written is an array with its shape. -/
theorem varOK_rect {n : Nat} {v : GoVal} (h : VarOK n v) :
    (∃ base leaf, Rect base leaf (extents n v) v) ∧ getDimsLimited v n = extents n v ∧
      (extents n v).length = n := by
  cases h with
  | plain _ _ h =>
    cases h with
    | num k dims v hv hs =>
      have he := extents_rect hv hs.pos
      refine ⟨⟨_, _, by rw [he]; exact hv⟩, ?_, by rw [he]⟩
      rw [he]
      exact getDimsLimited_rect (by rintro x ⟨_, rfl, -⟩; rfl) hv hs.pos
    | str s h0 hl => exact ⟨⟨.str, fun _ => True, trivial⟩, rfl, rfl⟩
  | strs dims v hv hne hs =>
    have he := extents_rect hv hs.pos
    refine ⟨⟨_, _, by rw [he]; exact hv⟩, ?_, by rw [he]⟩
    rw [he]
    exact getDimsLimited_rect (by rintro x ⟨_, rfl, -⟩; rfl) hv hs.pos
  | rows k dims v hv hs hp =>
    have he := extents_rect hv hs.pos
    refine ⟨⟨_, _, by rw [he]; exact hv⟩, ?_, by rw [he]⟩
    rw [he]
    exact getDimsLimited_rect (by rintro x ⟨_, rfl, -⟩; rfl) hv hs.pos

theorem extentsT_zero : ∀ v : TVal, extentsT 0 v = []
  | .enum v _ _ => by rw [extentsT]; exact extentsT_zero v
  | .num _ _ | .str _ | .slice _ _ | .opaque _ | .compound _ _ | .field _ _ | .nil => by rw [extentsT]; simp

theorem extentsT_arr {base : TTy} {leaf : TVal → Prop} {dims : List Nat} {v : TVal}
    (hv : ArrT base leaf dims v) (hpos : ∀ d ∈ dims.dropLast, d ≠ 0) (hd : dims ≠ []) :
    extentsT dims.length v = dims := by
  induction dims generalizing v with
  | nil => exact absurd rfl hd
  | cons d ds ih =>
    obtain ⟨xs, rfl, hl, hx⟩ := hv
    cases xs with
    | nil =>
      cases ds with
      | nil =>
        simp only [List.length_nil] at hl
        subst hl
        simp [extentsT]
      | cons d' ds => exact absurd hl.symm (hpos d (by simp))
    | cons x xs =>
      simp only [List.length_cons] at hl ⊢
      rw [extentsT, hl]
      cases ds with
      | nil =>
        congr 1
        simp only [List.length_nil]
        exact extentsT_zero x
      | cons d' ds => rw [ih (hx x (by simp)) (fun y hy => hpos y (by simp [hy])) (by simp)]

/-- Every value that may be written has its shape. -/
theorem varAny_dims {n : Nat} {v : GoVal} (h : VarAny n v) :
    getDimsLimited v n = extents n v ∧ (extents n v).length = n := by
  cases h with
  | common _ _ h => exact (varOK_rect h).2
  | user w dims v hv =>
    have hg : getDimsLimited (.user v) dims.length = dims := by rw [getDimsLimited]; exact (var_user hv).1.2.2
    suffices he : extents dims.length (.user v) = dims by rw [hg, he]; exact ⟨rfl, rfl⟩
    have he : extents dims.length (.user v) = extentsT dims.length v := by
      cases dims with
      | nil => simp only [List.length_nil, extents]; exact (extentsT_zero v).symm
      | cons d ds => simp only [List.length_cons, extents]
    rw [he]
    by_cases hd : dims = []
    · subst hd; exact extentsT_zero v
    cases hv with
    | records _ _ _ _ hv hp =>
      exact extentsT_arr hv (fun d hd => hp d ((List.dropLast_sublist _).subset hd)) hd
    | seqs _ _ _ hv hp =>
      exact extentsT_arr hv (fun d hd => hp d ((List.dropLast_sublist _).subset hd)) hd
    | enum k names vals _ v _ hv hp => rw [extentsT]; exact extentsT_arr hv hp hd

theorem tyNest_inj {a b : GoTy} {xs ys : List Nat} (hl : xs.length = ys.length)
    (h : tyNest a xs = tyNest b ys) : a = b := by
  induction xs generalizing ys with
  | nil =>
    cases ys with
    | nil => exact h
    | cons y ys => simp at hl
  | cons x xs ih =>
    cases ys with
    | nil => simp at hl
    | cons y ys =>
      simp only [tyNest, GoTy.slice.injEq] at h
      exact ih (by simpa using hl) h

theorem rect_base {a b : GoTy} {p q : GoVal → Prop} {xs ys : List Nat} {v : GoVal} (h1 : Rect a p xs v)
    (h2 : Rect b q ys v) (hl : xs.length = ys.length) (hne : xs ≠ []) : a = b := by
  cases xs with
  | nil => exact absurd rfl hne
  | cons x xs =>
    cases ys with
    | nil => simp at hl
    | cons y ys =>
      obtain ⟨us, rfl, -, -⟩ := h1
      obtain ⟨vs, he, -, -⟩ := h2
      simp only [GoVal.slice.injEq] at he
      exact tyNest_inj (by simpa using hl) he.1

/-- Sequences have no length zero. -/
theorem varOK_seq {n : Nat} {v : GoVal} (h : VarOK n v) (hs : Sequences n v) :
    ∀ d ∈ extents n v, d ≠ 0 := by
  obtain ⟨k', dims', hl, hr⟩ := hs
  cases h with
  | plain _ _ h =>
    cases h with
    | num k dims v hv hs =>
      cases dims with
      | nil => simp [extents]
      | cons d ds => cases rect_base hv hr hl.symm (by simp)
    | str s h0 hl => simp [extents]
  | strs dims v hv hne hs => cases rect_base hv hr hl.symm hne
  | rows k dims v hv hs hp =>
    rw [extents_rect hv hs.pos]
    exact hp

/-! ### Reading -/

/-- `getData` of a variable of which some rows are wanted. -/
theorem objData_slice (s : Src) (v : HVar) (full : List (Bytes × GoVal)) (o : Obj)
    (h : VarObj (heapLookup s.file) s.file v full o) (hc : Common v.val) {d : Nat} {ds : List Nat}
    (hd : getDimsLimited v.val v.dims.length = d :: ds) {b e : Nat} (h1 : b ≤ e) (h2 : e ≤ d) :
    ((b < e ∨ ¬ Sequences v.dims.length v.val) →
      objData s o ⟨some (b, e), o.info.blocks.map Block.toD⟩ =
        .ok (goSlice b e v.val, o.info.blocks.map Block.toD)) ∧
    ∀ x blocks, objData s o ⟨some (b, e), o.info.blocks.map Block.toD⟩ = .ok (x, blocks) →
      blocks = o.info.blocks.map Block.toD := by
  obtain ⟨dt, pat, data, g1, g2, g3, g4, g5, -⟩ := h.flat
  have hrl := rowMajor_cellOf dt.len (getDimsLimited v.val v.dims.length) data g3
  have hdl := g2.dlt d (by rw [hd]; exact List.mem_cons_self)
  have hb : dataBytes s.inflate s.fuel s.file o.info dt (getDimsLimited v.val v.dims.length)
      (o.info.blocks.map Block.toD) (some ((b : Int), (e : Int))) =
      .ok ((data.drop (b * (prod ds * dt.len))).take ((e - b) * (prod ds * dt.len)),
        o.info.blocks.map Block.toD) := by
    rcases Nat.eq_zero_or_pos (prod (getDimsLimited v.val v.dims.length)) with hp | hp
    · rw [g2.empty hp (by rintro x y ⟨⟩; omega)]
      rw [hp, Nat.zero_mul] at g3
      rw [List.length_eq_zero_iff.1 g3]
      simp
    · rw [hd] at hp
      have hd0 : 0 < d := all_pos_of_prod hp d List.mem_cons_self
      have hq : prod (d :: ds) * dt.len / d = prod ds * dt.len := by
        rw [prod, Nat.mul_assoc, Nat.mul_div_cancel_left _ hd0]
      rw [g2.bytes (by rw [hd]; exact hp) (sl := some ((b : Int), (e : Int)))
        ⟨d, ds, hd, hd0, by omega, by omega, by omega⟩, hrl]
      simp only [rangeOf, hd, List.headD_cons, hq, Int.toNat_natCast]
      rw [← Nat.mul_sub_right_distrib]
  have hs : sliceDims (getDimsLimited v.val v.dims.length) (some ((b : Int), (e : Int))) = (e - b) :: ds := by
    rw [hd]
    simp only [sliceDims, u64_sub h1 (show e < 2 ^ 64 by omega)]
  constructor
  · intro hz
    obtain ⟨r, hr⟩ := g5 hc d ds b e hd h1 h2 hz
    simp only [objData, g1, h.dims, Option.getD_some, getData, hb, Res.bind_ok, hs, onBytes, hr, Res.pure_eq]
  · intro x blocks hx
    simp only [objData, g1, h.dims, Option.getD_some, getData, hb, Res.bind_ok] at hx
    rw [Res.bind_eq_ok] at hx
    obtain ⟨y, -, hy⟩ := hx
    simp only [Res.pure_eq, Res.ok.injEq, Prod.mk.injEq] at hy
    exact hy.2.symm

theorem boxSlice_nil (v : GoVal) : boxSlice [] v = v := by cases v <;> rfl

theorem resAll_ok {α β : Type} (f : α → Res β) (g : α → β) (xs : List α) (h : ∀ x ∈ xs, f x = .ok (g x)) :
    resAll (xs.map f) = .ok (xs.map g) := by
  induction xs with
  | nil => rfl
  | cons x xs ih =>
    simp only [List.map_cons, resAll, h x (by simp), ih fun y hy => h y (by simp [hy])]

/-- Bounds as the caller gives them. -/
def ints (rs : List (Nat × Nat)) : List (Int × Int) := rs.map fun r => ((r.1 : Int), (r.2 : Int))

theorem sliceRec_ok {base : GoTy} {leaf : GoVal → Prop} {dims : List Nat} {v : GoVal}
    (hv : Rect base leaf dims v) {rs : List (Nat × Nat)} (hb : InBox rs dims) :
    sliceRec (ints rs) v = .ok (boxSlice rs v) := by
  induction dims generalizing v rs with
  | nil =>
    cases rs with
    | nil => rw [boxSlice_nil]; rfl
    | cons r rs => exact hb.elim
  | cons d ds ih =>
    cases rs with
    | nil => exact hb.elim
    | cons r rs =>
      obtain ⟨b, e⟩ := r
      obtain ⟨h1, h2, h3⟩ := hb
      obtain ⟨xs, rfl, hl, hx⟩ := hv
      have hall : ∀ x ∈ (xs.drop b).take (e - b), sliceRec (ints rs) x = .ok (boxSlice rs x) := by
        intro x hxm
        exact ih (hx x (List.mem_of_mem_drop (List.mem_of_mem_take hxm))) h3
      have he : ((e : Int) - (b : Int)).toNat = e - b := by omega
      rw [ints, List.map_cons, sliceRec, if_neg (by simp only; omega)]
      simp only [Int.toNat_natCast, he, boxSlice]
      cases rs with
      | nil =>
        have : boxSlice [] = id := funext boxSlice_nil
        simp [this]
      | cons r rs =>
        have := resAll_ok _ _ _ hall
        simp only [ints, List.map_cons] at this ⊢
        rw [this]
        rfl

/-- The first dimension has been cut already. -/
theorem boxSlice_cut (b e : Nat) (rs : List (Nat × Nat)) (t : GoTy) (xs : List GoVal) :
    boxSlice ((0, e - b) :: rs) (goSlice b e (.slice t xs)) = boxSlice ((b, e) :: rs) (.slice t xs) := by
  simp only [goSlice, boxSlice, List.drop_zero, Nat.sub_zero, List.take_take, Nat.min_self]

/-! ### Histories -/

/-- No object has lost blocks; those that are cut are cut inside, and have one of the names in `cut`
if they are not whole. -/
def Held (cut : Bytes → Prop) (o : Obj) (t : VTab) : Prop :=
  ∀ k ∈ allObjs o, (t.of k).cached = k.info.blocks.map Block.toD ∧
    ((t.of k).sl = none ∨ ∃ b e d : Nat, ∃ ds, k.info.dims = some (d :: ds) ∧
      (t.of k).sl = some ((b : Int), (e : Int)) ∧ b ≤ e ∧ e ≤ d ∧ (cut k.info.name ∨ (b = 0 ∧ e = d)))

theorem held_nil (cut : Bytes → Prop) (o : Obj) : Held cut o [] := fun _ _ => ⟨rfl, .inl rfl⟩

theorem Held.put {cut : Bytes → Prop} {o : Obj} {t : VTab} (hnd : (o.info.addr :: addrsBelow o).Nodup)
    (hf : Held cut o t) {k : Obj} (hk : k ∈ allObjs o) {sl : Sl}
    (hsl : sl = none ∨ ∃ b e d : Nat, ∃ ds, k.info.dims = some (d :: ds) ∧
      sl = some ((b : Int), (e : Int)) ∧ b ≤ e ∧ e ≤ d ∧ (cut k.info.name ∨ (b = 0 ∧ e = d))) :
    Held cut o (t.put k ⟨sl, k.info.blocks.map Block.toD⟩) := by
  intro x hx
  rw [VTab.of, VTab.put, List.lookup_cons]
  by_cases he : x.info.addr = k.info.addr
  · have : x = k := addr_inj (·.info.addr) (allObjs o) (by rw [allObjs_addr]; exact hnd) hx hk he
    subst this
    simp only [beq_self_eq_true, Option.getD_some, true_and]
    exact hsl
  · have : (x.info.addr == k.info.addr) = false := by simpa using he
    rw [this]
    exact hf x hx

/-- A variable of the file and its object. -/
structure VarIn (s : Src) (o : Obj) (v : HVar) (k : Obj) : Prop where
  mem : k ∈ allObjs o
  ok : VarOK v.dims.length v.val
  name : k.info.name = v.name
  obj : ∃ full w, w.val = v.val ∧ w.dims = v.dims ∧ VarObj (heapLookup s.file) s.file w full k

theorem VarIn.dims {s : Src} {o : Obj} {v : HVar} {k : Obj} (h : VarIn s o v k) : k.info.dims = some v.extents := by
  obtain ⟨full, w, h1, h2, hw⟩ := h.obj
  rw [hw.dims, h1, h2, (varOK_rect h.ok).2.1]
  rfl

theorem VarIn.small {s : Src} {o : Obj} {v : HVar} {k : Obj} (h : VarIn s o v k) : ∀ d ∈ v.extents, d < 2 ^ 63 := by
  obtain ⟨full, w, h1, h2, hw⟩ := h.obj
  obtain ⟨dt, pat, data, g1, g2, g3, g4, g5, -⟩ := hw.flat
  have := g2.dlt
  rw [h1, h2, (varOK_rect h.ok).2.1] at this
  exact this

theorem VarIn.whole {s : Src} {o : Obj} {v : HVar} {k : Obj} (h : VarIn s o v k) :
    objData s k ⟨none, k.info.blocks.map Block.toD⟩ = .ok (v.val, k.info.blocks.map Block.toD) := by
  obtain ⟨full, w, h1, h2, hw⟩ := h.obj
  rw [objData_ok s w full k hw (by rw [h1]; exact h.ok.common) _ rfl, h1]

theorem VarIn.part {s : Src} {o : Obj} {v : HVar} {k : Obj} (h : VarIn s o v k) {d : Nat} {ds : List Nat}
    (hd : v.extents = d :: ds) {b e : Nat} (h1 : b ≤ e) (h2 : e ≤ d) :
    ((b < e ∨ ¬ Sequences v.dims.length v.val) →
      objData s k ⟨some (b, e), k.info.blocks.map Block.toD⟩ =
        .ok (goSlice b e v.val, k.info.blocks.map Block.toD)) ∧
    ∀ x blocks, objData s k ⟨some (b, e), k.info.blocks.map Block.toD⟩ = .ok (x, blocks) →
      blocks = k.info.blocks.map Block.toD := by
  obtain ⟨full, w, g1, g2, hw⟩ := h.obj
  have hd' : getDimsLimited w.val w.dims.length = d :: ds := by
    rw [g1, g2, (varOK_rect h.ok).2.1]
    exact hd
  have := objData_slice s w full k hw (by rw [g1]; exact h.ok.common) hd' h1 h2
  rwa [g1, g2] at this

theorem goSlice_whole {base : GoTy} {leaf : GoVal → Prop} {d : Nat} {ds : List Nat} {v : GoVal}
    (hv : Rect base leaf (d :: ds) v) : goSlice 0 d v = v := by
  obtain ⟨xs, rfl, hl, -⟩ := hv
  simp only [goSlice, List.drop_zero, Nat.sub_zero]
  rw [List.take_of_length_le (by omega)]

/-- All rows of a variable are the variable. -/
theorem VarIn.all {s : Src} {o : Obj} {v : HVar} {k : Obj} (h : VarIn s o v k) {d : Nat} {ds : List Nat}
    (hd : v.extents = d :: ds) : goSlice 0 d v.val = v.val ∧ (0 < d ∨ ¬ Sequences v.dims.length v.val) := by
  obtain ⟨⟨base, leaf, hr⟩, -, -⟩ := varOK_rect h.ok
  have hd' : H5.extents v.dims.length v.val = d :: ds := hd
  rw [hd'] at hr
  refine ⟨goSlice_whole hr, ?_⟩
  by_cases hq : Sequences v.dims.length v.val
  · have := varOK_seq h.ok hq d (by rw [hd']; simp)
    omega
  · exact .inr hq

theorem VarIn.rank {s : Src} {o : Obj} {v : HVar} {k : Obj} (h : VarIn s o v k) : v.extents.length = v.dims.length :=
  (varOK_rect h.ok).2.2

/-- Reading an object in the state that calls have left it in. -/
theorem VarIn.data {s : Src} {o : Obj} {v : HVar} {k : Obj} (h : VarIn s o v k) {cut : Bytes → Prop} {t : VTab}
    (ht : Held cut o t) :
    (∀ x blocks, objData s k (t.of k) = .ok (x, blocks) → blocks = k.info.blocks.map Block.toD) ∧
    (¬ cut v.name ∨ v.dims = [] → objData s k (t.of k) = .ok (v.val, k.info.blocks.map Block.toD)) := by
  obtain ⟨h1, h2⟩ := ht k h.mem
  have he : t.of k = ⟨(t.of k).sl, k.info.blocks.map Block.toD⟩ := by rw [← h1]
  rw [he]
  rcases h2 with h2 | ⟨b, e, d, ds, hd, h2, h3, h4, h5⟩
  · rw [h2, h.whole]
    refine ⟨?_, fun _ => rfl⟩
    rintro x blocks ⟨⟩
    rfl
  · rw [h.dims, Option.some.injEq] at hd
    rw [h2]
    obtain ⟨p1, p2⟩ := h.part hd h3 h4
    refine ⟨p2, fun hc => ?_⟩
    rcases hc with hc | hc
    · rcases h5 with h5 | ⟨rfl, rfl⟩
      · rw [h.name] at h5
        exact absurd h5 hc
      · obtain ⟨a1, a2⟩ := h.all hd
        rw [p1 a2, a1]
    · have := h.rank
      rw [hd, hc] at this
      cases this

/-- A slice leaves the object cut there. -/
theorem VarIn.getSlice {s : Src} {o : Obj} {v : HVar} {h : HGetter} (hk : VarIn s o v h.obj)
    {cut : Bytes → Prop} {t : VTab} (hnd : (o.info.addr :: addrsBelow o).Nodup) (ht : Held cut o t) {b e : Int}
    (hbe : e < b ∨ RowsIn v b e) (hcut : cut v.name ∨ (b = 0 ∧ e = v.rows)) :
    Held cut o (h.getSlice s t b e).1 := by
  have hshape : h.shape = v.extents := by rw [HGetter.shape, hk.dims]; rfl
  obtain ⟨g1, g2⟩ := hk.data ht
  rw [HGetter.getSlice]
  split
  · rename_i hsc
    rw [hshape] at hsc
    have hd : v.dims = [] := by
      have := hk.rank
      rw [hsc.2.2] at this
      exact List.length_eq_zero_iff.1 this.symm
    rw [g2 (.inr hd)]
    exact ht.put hnd hk.mem (ht _ hk.mem).2
  · split
    · exact ht
    · rename_i hsc hlt
      obtain ⟨r1, r2, r3, r4⟩ := hbe.resolve_left hlt
      simp only
      rw [(ht _ hk.mem).1]
      refine ht.put hnd hk.mem (.inr ?_)
      obtain ⟨d, ds, hd⟩ : ∃ d ds, v.extents = d :: ds := by
        cases hd : v.extents with
        | nil =>
          refine absurd ?_ hsc
          have := hk.rank
          rw [hd] at this
          have h4 := r4 (List.length_eq_zero_iff.1 this.symm)
          rw [HVar.rows, hd] at r3
          simp only [List.headD_nil] at r3
          exact ⟨by omega, by omega, by rw [hshape, hd]⟩
        | cons d ds => exact ⟨d, ds, rfl⟩
      have hrows : v.rows = d := by rw [HVar.rows, hd]; rfl
      refine ⟨b.toNat, e.toNat, d, ds, by rw [hk.dims, hd], ?_, by omega, by omega, ?_⟩
      · rw [Int.toNat_of_nonneg r1, Int.toNat_of_nonneg (by omega)]
      · rw [hk.name]
        exact hcut.imp_right fun ⟨h1, h2⟩ => ⟨by omega, by omega⟩

theorem VarIn.len {s : Src} {o : Obj} {v : HVar} {h : HGetter} (hk : VarIn s o v h.obj) : h.len = v.rows := by
  have hshape : h.shape = v.extents := by rw [HGetter.shape, hk.dims]; rfl
  rw [HGetter.len, hshape, HVar.rows]
  cases hd : v.extents with
  | nil => rfl
  | cons d ds =>
    have := hk.small d (by rw [hd]; simp)
    simp only [List.headD_cons, i64, if_pos this]

theorem VarIn.rowsAll {s : Src} {o : Obj} {v : HVar} {k : Obj} (hk : VarIn s o v k) : RowsIn v 0 v.rows := by
  refine ⟨by omega, by omega, by omega, fun hd => ?_⟩
  have := hk.rank
  rw [hd] at this
  rw [HVar.rows, List.length_eq_zero_iff.1 this]
  decide

theorem VarIn.getValues {s : Src} {o : Obj} {v : HVar} {h : HGetter} (hk : VarIn s o v h.obj)
    {cut : Bytes → Prop} {t : VTab} (hnd : (o.info.addr :: addrsBelow o).Nodup) (ht : Held cut o t) :
    Held cut o (h.values s t).1 := by
  rw [HGetter.values, hk.len]
  exact hk.getSlice hnd ht (.inr hk.rowsAll) (.inr ⟨rfl, rfl⟩)

theorem VarIn.getSliceMD {s : Src} {o : Obj} {v : HVar} {h : HGetter} (hk : VarIn s o v h.obj)
    {cut : Bytes → Prop} {t : VTab} (hnd : (o.info.addr :: addrsBelow o).Nodup) (ht : Held cut o t) {bs es : List Int}
    (hbe : ∀ b bs', bs = b :: bs' → ∀ e es', es = e :: es' → e < b ∨ RowsIn v b e) (hcut : cut v.name) :
    Held cut o (h.getSliceMD s t bs es).1 := by
  unfold HGetter.getSliceMD
  split
  · exact ht
  · split
    · exact ht
    · cases bs with
      | nil => exact ht
      | cons b bs =>
        cases es with
        | nil => exact ht
        | cons e es =>
          have := hk.getSlice hnd ht (hbe b bs rfl e es rfl) (.inl hcut)
          simp only
          split <;> rename_i hg <;> rw [hg] at this <;> exact this

/-- What a getter returns. -/
theorem VarIn.reads {s : Src} {o : Obj} {v : HVar} {h : HGetter} (hk : VarIn s o v h.obj)
    {cut : Bytes → Prop} {t : VTab} (ht : Held cut o t) (hattrs : h.attrs = shown v.attrs) :
    GetterReads s v h t := by
  have hshape : h.shape = v.extents := by rw [HGetter.shape, hk.dims]; rfl
  have hrank := hk.rank
  have hscalar : v.dims = [] → (h.getSlice s t 0 1).2 = .ok v.val := by
    intro hd
    have he : v.extents = [] := List.length_eq_zero_iff.1 (by rw [hrank, hd]; rfl)
    rw [HGetter.getSlice, if_pos ⟨rfl, rfl, by rw [hshape, he]⟩, (hk.data ht).2 (.inr hd)]
  have hslice : v.dims ≠ [] → ∀ b e : Nat, b ≤ e → e ≤ v.rows → (b < e ∨ ¬ Sequences v.dims.length v.val) →
      (h.getSlice s t b e).2 = .ok (goSlice b e v.val) := by
    intro hd b e h1 h2 h3
    cases he : v.extents with
    | nil =>
      rw [he] at hrank
      exact absurd (List.length_eq_zero_iff.1 hrank.symm) hd
    | cons d ds =>
      have hrows : v.rows = d := by rw [HVar.rows, he]; rfl
      have hp := (hk.part he h1 (by omega)).1 h3
      rw [HGetter.getSlice, if_neg (by rw [hshape, he]; simp), if_neg (by omega)]
      simp only [(ht _ hk.mem).1, hp, Res.map]
  refine ⟨hshape, hk.len, hattrs, ?_, hscalar, hslice, ?_, ?_, ?_⟩
  · rw [HGetter.values, hk.len]
    by_cases hd : v.dims = []
    · have he : v.extents = [] := List.length_eq_zero_iff.1 (by rw [hrank, hd]; rfl)
      rw [HVar.rows, he]
      exact hscalar hd
    · cases he : v.extents with
      | nil =>
        rw [he] at hrank
        exact absurd (List.length_eq_zero_iff.1 hrank.symm) hd
      | cons d ds =>
        obtain ⟨a1, a2⟩ := hk.all he
        have hrows : v.rows = d := by rw [HVar.rows, he]; rfl
        have := hslice hd 0 d (Nat.zero_le _) (by omega) a2
        rw [a1] at this
        rw [hrows]
        exact this
  · intro hd rs hb hq
    obtain ⟨⟨base, leaf, hr⟩, -, -⟩ := varOK_rect hk.ok
    have hr : Rect base leaf v.extents v.val := hr
    cases he : v.extents with
    | nil =>
      rw [he] at hrank
      exact absurd (List.length_eq_zero_iff.1 hrank.symm) hd
    | cons d ds =>
      rw [he] at hb hr hrank
      cases rs with
      | nil => exact hb.elim
      | cons r rs =>
        obtain ⟨b, e⟩ := r
        obtain ⟨h1, h2, h3⟩ := hb
        have hrows : v.rows = d := by rw [HVar.rows, he]; rfl
        have hlen : ∀ (rs : List (Nat × Nat)) (ds : List Nat), InBox rs ds → rs.length = ds.length ∧ ∀ r ∈ rs, r.1 ≤ r.2 := by
          intro rs
          induction rs with
          | nil =>
            intro ds h
            cases ds with
            | nil => exact ⟨rfl, by simp⟩
            | cons => exact h.elim
          | cons r rs ih =>
            intro ds h
            cases ds with
            | nil => exact h.elim
            | cons d ds =>
              obtain ⟨g1, g2, g3⟩ := h
              obtain ⟨g4, g5⟩ := ih ds g3
              refine ⟨by simp [g4], ?_⟩
              intro x hx
              rw [List.mem_cons] at hx
              rcases hx with rfl | hx
              · exact g1
              · exact g5 x hx
        obtain ⟨l1, l2⟩ := hlen rs ds h3
        have hs := hslice hd b e h1 (by omega) (hq.imp_left fun h => h (b, e) rfl)
        unfold HGetter.getSliceMD
        rw [hshape, he, if_neg (by simp [l1]), if_neg ?_]
        · simp only [List.map_cons]
          have hz : (rs.map fun r => (r.1 : Int)).zip (rs.map fun r => (r.2 : Int)) = ints rs := by
            rw [ints, List.zip_map']
          have hsmall := hk.small d (by rw [he]; simp)
          have hi : i64 (u64 ((e : Int) - (b : Int))) = ((e - b : Nat) : Int) := by
            rw [u64_sub h1 (by omega), i64, if_pos (by omega)]
          cases hg : h.getSlice s t b e with
          | mk t' r' =>
            rw [hg] at hs
            simp only at hs
            subst hs
            simp only [hz, hi]
            have hbox : InBox ((0, e - b) :: rs) ((e - b) :: ds) := ⟨Nat.zero_le _, Nat.le_refl _, h3⟩
            have := sliceRec_ok (rect_slice (b := b) hr h2) hbox
            rw [ints, List.map_cons] at this
            simp only [Int.ofNat_zero] at this
            refine Eq.trans this ?_
            obtain ⟨xs, hx, -, -⟩ := hr
            rw [hx, boxSlice_cut]
        · rw [List.any_eq_true]
          rintro ⟨p, hp, hlt⟩
          rw [List.zip_map', List.mem_map] at hp
          obtain ⟨r, hr', rfl⟩ := hp
          have := of_decide_eq_true hlt
          rw [List.mem_cons] at hr'
          rcases hr' with rfl | hr'
          · simp only at this; omega
          · have := l2 r hr'
            omega
  · intro b e hlt
    rw [HGetter.getSlice, if_neg (by omega), if_pos hlt]
  · intro b e hl
    unfold HGetter.getSliceMD
    rw [hshape, if_pos (by rw [hrank]; exact hl)]

/-! ### Files -/

variable {s : Src} {env : Env} {root root' : HGroup} {ds : List (Bytes × Nat)} {o : Obj}

/-- The getter of a variable. -/
theorem Ctx.getter (c : Ctx s env root root' ds o) {names : List Bytes} {g g' : HGroup} {G : Group}
    (hat : root.at? names = some g) (hroot : G.root = o) (hfo : follow o names = some G.obj)
    (hg : GroupObj (heapLookup s.file) s.file env g' G.obj) (ht : Tidy g') (ha : GroupAs root names g g') :
    (∀ v ∈ g.info.vars, ∃ h, G.getVarGetter s v.name = .ok h ∧ G.findVariable v.name = some h.obj ∧
      VarIn s o v h.obj ∧ h.dims = dimsRead root names v ∧ h.attrs = shown v.attrs ∧
      Verif.H5.varMeta s o h.obj = .ok (h.dims, h.attrs)) ∧
    (∀ n, n ∉ g.info.vars.map (·.name) → G.findVariable n = none) := by
  have hal := c.allowed.group.at hat
  obtain ⟨h1, h2⟩ := findVariable_ok hg ht ha hal
  refine ⟨?_, h2⟩
  intro v hv
  obtain ⟨k, w, hk, hw, hs, hva, hmem⟩ := h1 v hv
  have hko : k ∈ allObjs o := follow_mem names hfo (kid_mem_allObjs hmem (self_mem_allObjs k))
  have hnu := (c.noUser.at hat).inv.2.1 v hv
  have hm := c.varMeta hs (hal.inv.2.1 v hv) hnu.2 (c.varDims hat hv) hva
  refine ⟨⟨k, dimsRead root names v, shown v.attrs⟩, ?_, hk, ?_, rfl, rfl, hm⟩
  · rw [Group.getVarGetter, hk]
    simp only [hroot, hm, Res.map]
  · refine ⟨hko, (hal.inv.2.1 v hv).val.ok hnu.1, by rw [hva.obj.name, hs.name], _, w, hs.val, ?_, hva.obj⟩
    rcases hs with ⟨rfl, _, _⟩ | ⟨i, _, _, rfl, _⟩ <;> rfl

/-- The groups that `GetGroup` returns. -/
theorem Ctx.getGroup (c : Ctx s env root root' ds o) (path : Bytes) :
    (∃ names g g' G, PathOf names path ∧ root.at? names = some g ∧ (rootGroup o).getGroup path = .ok G ∧
      G.root = o ∧ follow o names = some G.obj ∧ GroupObj (heapLookup s.file) s.file env g' G.obj ∧
      Tidy g' ∧ GroupAs root names g g') ∨
    (rootGroup o).getGroup path = .err .notFound := by
  rcases getGroup_root o path c.noEmpty.1 c.noEmpty.2 with ⟨names, hp, he⟩ | he
  · rw [he]
    have hgrp := c.group names
    cases hat : root.at? names with
    | none =>
      rw [hat] at hgrp
      simp only at hgrp
      simp only [lookup, hgrp]
      exact .inr trivial
    | some g =>
      rw [hat] at hgrp
      obtain ⟨o', g', h1, h2, h3, h4⟩ := hgrp
      simp only [lookup, h1]
      exact .inl ⟨names, g, g', _, hp, hat, rfl, rfl, h1, h2, h3, h4⟩
  · exact .inr he

theorem var_of_mem {g : HGroup} (hu : Uniq g) {v : HVar} (hv : v ∈ g.info.vars) :
    g.info.vars.find? (·.name == v.name) = some v := by
  have hnd := hu.inv.1
  generalize g.info.vars = vs at *
  induction vs with
  | nil => cases hv
  | cons x xs ih =>
    rw [List.map_cons, List.nodup_cons] at hnd
    rw [List.find?_cons]
    rw [List.mem_cons] at hv
    rcases hv with rfl | hv
    · simp
    · have : (x.name == v.name) = false := by
        rw [beq_eq_false_iff_ne]
        intro e
        exact hnd.1 (e ▸ List.mem_map_of_mem hv)
      rw [this]
      exact ih hv hnd.2

theorem Ctx.heldOne (c : Ctx s env root root' ds o) {cut : Bytes → Prop} {t : VTab} (ht : Held cut o t)
    (call : ReadCall) (hfine : call.Fine root) (hcut : ∀ n, call.Cuts n → cut n) :
    Held cut o (call.run s o t) := by
  have hnd := c.written.nodup
  have hget : ∀ path name (f : HGetter → VTab),
      (∀ names v h, PathOf names path → root.var? names name = some v → v.name = name → VarIn s o v h.obj → Held cut o (f h)) →
      Held cut o (ReadCall.run.onGetter s o t path name f) := by
    intro path name f hf
    unfold ReadCall.run.onGetter
    rcases c.getGroup path with ⟨names, g, g', G, hp, hat, hG, e1, e2, e3, e4, e5⟩ | hG
    · rw [hG]
      obtain ⟨k1, k2⟩ := c.getter hat e1 e2 e3 e4 e5
      by_cases hn : name ∈ g.info.vars.map (·.name)
      · obtain ⟨v, hv, rfl⟩ := List.mem_map.1 hn
        obtain ⟨h, h1, h2, h3, -⟩ := k1 v hv
        simp only [h1]
        refine hf names v h hp ?_ rfl h3
        rw [HGroup.var?, hat, Option.bind_some]
        exact var_of_mem (c.uniq.at hat) hv
      · simp only [Group.getVarGetter, k2 name hn]
        exact ht
    · rw [hG]
      exact ht
  cases call with
  | whole path name =>
    simp only [ReadCall.run]
    rcases c.getGroup path with ⟨names, g, g', G, hp, hat, hG, e1, e2, e3, e4, e5⟩ | hG
    · rw [hG]
      obtain ⟨k1, k2⟩ := c.getter hat e1 e2 e3 e4 e5
      by_cases hn : name ∈ g.info.vars.map (·.name)
      · obtain ⟨v, hv, rfl⟩ := List.mem_map.1 hn
        obtain ⟨h, -, h2, h3, -⟩ := k1 v hv
        have hd := (h3.data ht).1
        simp only [Group.getVariable, h2]
        cases hr : objData s h.obj (t.of h.obj) with
        | err e => exact ht
        | panic => exact ht
        | ok r =>
          obtain ⟨x, blocks⟩ := r
          rw [hd x blocks hr]
          exact ht.put hnd h3.mem (ht _ h3.mem).2
      · simp only [Group.getVariable, k2 name hn]
        exact ht
    · rw [hG]
      exact ht
  | values path name =>
    exact hget path name _ fun names v h _ _ _ hk => hk.getValues hnd ht
  | slice path name b e =>
    refine hget path name _ fun names v h hp hv hn hk => ?_
    exact hk.getSlice hnd ht (hfine names v hp hv) (.inl (by rw [hn]; exact hcut name rfl))
  | box path name b e =>
    refine hget path name _ fun names v h hp hv hn hk => ?_
    exact hk.getSliceMD hnd ht (hfine names v hp hv) (by rw [hn]; exact hcut name rfl)

theorem Ctx.heldAll (c : Ctx s env root root' ds o) {cut : Bytes → Prop} (calls : List ReadCall)
    (hfine : ∀ call ∈ calls, call.Fine root) (hcut : ∀ call ∈ calls, ∀ n, call.Cuts n → cut n) :
    Held cut o (runReads s o calls) := by
  have : ∀ t, Held cut o t → Held cut o (calls.foldl (ReadCall.run s o) t) := by
    induction calls with
    | nil => exact fun t h => h
    | cons r rs ih =>
      exact fun t h => ih (fun x hx => hfine x (by simp [hx])) (fun x hx => hcut x (by simp [hx])) _
        (c.heldOne h r (hfine r (by simp)) (hcut r (by simp)))
  exact this [] (held_nil cut o)

/-- Reading a variable after calls that have not cut it. -/
theorem VarIn.getVariable {v : HVar} {h : HGetter} (hk : VarIn s o v h.obj) {G : Group} (hroot : G.root = o)
    (hf : G.findVariable v.name = some h.obj) (hm : Verif.H5.varMeta s o h.obj = .ok (h.dims, h.attrs))
    {cut : Bytes → Prop} {t : VTab} (ht : Held cut o t) (hc : ¬ cut v.name ∨ v.dims = []) :
    (G.getVariable s t v.name).2 = .ok ⟨v.val, h.dims, h.attrs⟩ := by
  rw [Group.getVariable, hf]
  simp only [(hk.data ht).2 hc, hroot, hm, Res.map]

end Verif.H5
