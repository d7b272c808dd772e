import Verif.Spec.H5File
import Verif.Lemmas.H5Value
import Verif.Lemmas.H5Flat
/-!
The values of variables: what the writer stores and that the reader gets them back.
-/
namespace Verif.H5
open Cdf

/-! ### The elements of a piece of data -/

/-- The bytes of element `idx` of an array with elements of `n` bytes. -/
def cellOf (n : Nat) : List Nat → Bytes → List Nat → Bytes
  | [], b, _ => b.take n ++ List.replicate (n - b.length) 0
  | _ :: ds, b, i :: is => cellOf n ds ((b.drop (i * (prod ds * n))).take (prod ds * n)) is
  | _ :: _, _, [] => List.replicate n 0

theorem cellOf_length (n : Nat) (dims : List Nat) (b : Bytes) (idx : List Nat) :
    (cellOf n dims b idx).length = n := by
  induction dims generalizing b idx with
  | nil => simp only [cellOf, List.length_append, List.length_take, List.length_replicate]; omega
  | cons d ds ih =>
    cases idx with
    | nil => simp [cellOf]
    | cons i is => exact ih _ _

theorem flatMap_pieces (m : Nat) (d : Nat) (b : Bytes) (hb : b.length = d * m) :
    ((List.range d).flatMap fun i => (b.drop (i * m)).take m) = b := by
  induction d generalizing b with
  | zero =>
    rw [Nat.zero_mul] at hb
    rw [List.length_eq_zero_iff.1 hb]
    rfl
  | succ d ih =>
    rw [List.range_succ_eq_map, List.flatMap_cons, List.flatMap_map]
    have e : (b.drop m).length = d * m := by
      rw [List.length_drop, hb, Nat.add_mul]; omega
    have := ih (b.drop m) e
    simp only [List.drop_drop] at this
    simp only [Nat.zero_mul, List.drop_zero, Nat.succ_eq_add_one, Nat.add_mul, Nat.one_mul]
    conv => rhs; rw [← List.take_append_drop m b]
    congr 1
    rw [← this]
    congr 1
    funext i
    rw [Nat.add_comm m]

theorem rowMajor_cellOf (n : Nat) (dims : List Nat) (b : Bytes) (hb : b.length = prod dims * n) :
    rowMajor dims (cellOf n dims b) = b := by
  induction dims generalizing b with
  | nil =>
    simp only [prod, List.foldr_nil, Nat.one_mul] at hb
    simp [rowMajor, indices, cellOf, hb, List.take_of_length_le]
  | cons d ds ih =>
    have hd : b.length = d * (prod ds * n) := by
      rw [hb]; simp [prod, Nat.mul_assoc]
    conv => rhs; rw [← flatMap_pieces (prod ds * n) d b hd]
    simp only [rowMajor, indices, List.flatMap_assoc, List.flatMap_map]
    apply flatMap_congr_mem
    intro i hi
    have hlen : ((b.drop (i * (prod ds * n))).take (prod ds * n)).length = prod ds * n := by
      rw [List.length_take, List.length_drop, hd]
      have hi' : i + 1 ≤ d := List.mem_range.1 hi
      have := Nat.mul_le_mul_right (prod ds * n) hi'
      rw [Nat.add_mul, Nat.one_mul] at this
      omega
    exact ih _ hlen

/-! ### Variables -/

theorem rect_slice {base : GoTy} {leaf : GoVal → Prop} {d : Nat} {ds : List Nat} {v : GoVal}
    (hv : Rect base leaf (d :: ds) v) {b e : Nat} (h2 : e ≤ d) :
    Rect base leaf ((e - b) :: ds) (goSlice b e v) := by
  obtain ⟨xs, rfl, hd, hx⟩ := hv
  refine ⟨_, rfl, ?_, fun x hxm => hx x (List.mem_of_mem_drop (List.mem_of_mem_take hxm))⟩
  rw [List.length_take, List.length_drop]
  omega

theorem leaves_slice {base : GoTy} {leaf : GoVal → Prop} {d : Nat} {ds : List Nat} {v : GoVal}
    (hv : Rect base leaf (d :: ds) v) (b e : Nat) :
    leaves (ds.length + 1) (goSlice b e v) =
      ((leaves (ds.length + 1) v).drop (b * prod ds)).take ((e - b) * prod ds) := by
  obtain ⟨xs, rfl, hd, hx⟩ := hv
  simp only [goSlice, leaves]
  rw [flatMap_slice (fun x hxm => leaves_length (hx x hxm))]

/-- The bytes of a range of rows. -/
theorem bytes_slice {base : GoTy} {leaf : GoVal → Prop} {d : Nat} {ds : List Nat} {v : GoVal}
    (hv : Rect base leaf (d :: ds) v) (b e : Nat) {enc : GoVal → Bytes} {n : Nat}
    (henc : ∀ x ∈ leaves (ds.length + 1) v, (enc x).length = n) :
    (((leaves (ds.length + 1) v).flatMap enc).drop (b * (prod ds * n))).take ((e - b) * (prod ds * n)) =
      (leaves (ds.length + 1) (goSlice b e v)).flatMap enc := by
  rw [leaves_slice hv, ← Nat.mul_assoc, ← Nat.mul_assoc, flatMap_slice henc]

/-- What the writer makes of the value of a variable with `n` dimensions, with the heap `hp` and the
indices `is`, and that the reader undoes it. -/
structure VarEnc (heap : HeapFn) (hp : Option Heap) (is : List Nat) (v : GoVal) (n : Nat) (t : WTy)
    (dims : List Nat) (data : Bytes) : Prop where
  shape : getDimsLimited v n = dims
  rank : dims.length = n
  ty : datatypeOf v n = .ok t
  write : ∃ rest, writeVal false hp (fixedLen v) v n is = .ok (data, rest)
  readable : t.Readable true
  whole : t.Whole
  small : (t.bytes false).length ≤ 60000
  fit : dims.length ≤ 255 ∧ ∀ d ∈ dims, d < 2 ^ 63
  elem : 0 < t.dt.len
  fill : ∃ pat, defaultFill t.dt false = .ok pat ∧ pat.length ∣ t.dt.len
  len : data.length = prod dims * t.dt.len
  size : data.length < 2 ^ 63
  read : Common v → ∃ s, alloc heap t.dt dims ⟨0, data⟩ = .ok (v, s)
  rows : Common v → ∀ d ds b e, dims = d :: ds → b ≤ e → e ≤ d → (b < e ∨ ¬ Sequences n v) →
    ∃ s, alloc heap t.dt ((e - b) :: ds)
      ⟨0, (data.drop (b * (prod ds * t.dt.len))).take ((e - b) * (prod ds * t.dt.len))⟩ =
        .ok (goSlice b e v, s)
  shown : Shown heap t.dt dims data (GoVal.lift v)

theorem getDimsLimited_rect {base : GoTy} {leaf : GoVal → Prop}
    (hleaf : ∀ x, leaf x → getDimsLimited x 0 = []) {dims : List Nat} {v : GoVal}
    (hv : Rect base leaf dims v) (hpos : ∀ d ∈ dims.dropLast, d ≠ 0) :
    getDimsLimited v dims.length = dims := by
  induction dims generalizing v with
  | nil => exact hleaf v hv
  | cons d ds ih =>
    obtain ⟨xs, rfl, hd, hx⟩ := hv
    simp only [getDimsLimited, List.length_cons, Nat.add_one_ne_zero, ↓reduceIte, hd,
      Nat.add_one_sub_one, List.cons.injEq, true_and]
    cases xs with
    | nil =>
      cases ds with
      | nil => rfl
      | cons d' ds => exact absurd hd.symm (hpos d (by simp))
    | cons x xs =>
      refine ih (hx x (by simp)) (fun e he => hpos e ?_)
      cases ds with
      | nil => simp at he
      | cons d' ds => simpa using .inr he

theorem hasVlen_rect {base : GoTy} {leaf : GoVal → Prop} (hb : ∀ t, base ≠ .slice t)
    (hleaf : ∀ x, leaf x → hasVlen x 0 = false) {dims : List Nat} {v : GoVal}
    (hv : Rect base leaf dims v) (hpos : ∀ d ∈ dims.dropLast, d ≠ 0) :
    hasVlen v dims.length = false := by
  induction dims generalizing v with
  | nil => exact hleaf v hv
  | cons d ds ih =>
    obtain ⟨xs, rfl, hd, hx⟩ := hv
    simp only [hasVlen, List.length_cons, Nat.add_one_ne_zero, ↓reduceIte, Nat.add_one_sub_one]
    cases xs with
    | nil =>
      cases ds with
      | nil =>
        cases hbase : base with
        | slice t => exact absurd hbase (hb t)
        | _ => rfl
      | cons d' ds => exact absurd hd.symm (hpos d (by simp))
    | cons x xs =>
      refine ih (hx x (by simp)) (fun e he => hpos e ?_)
      cases ds with
      | nil => simp at he
      | cons d' ds => simpa using .inr he

theorem hasVlen_rows {k : Kind} {dims : List Nat} {v : GoVal}
    (hv : Rect (.slice (.num k)) (Row k) dims v) (hpos : ∀ d ∈ dims, d ≠ 0) :
    hasVlen v dims.length = true := by
  induction dims generalizing v with
  | nil => obtain ⟨ys, rfl, -⟩ := hv; rfl
  | cons d ds ih =>
    obtain ⟨xs, rfl, hd, hx⟩ := hv
    simp only [hasVlen, List.length_cons, Nat.add_one_ne_zero, ↓reduceIte, Nat.add_one_sub_one]
    cases xs with
    | nil => exact absurd hd.symm (hpos d (by simp))
    | cons x xs => exact ih (hx x (by simp)) (fun e he => hpos e (by simp [he]))

/-- The sequences of a variable go to the heap in row-major order. -/
theorem collectVarVlen_rows {k : Kind} {dims : List Nat} {v : GoVal}
    (hv : Rect (.slice (.num k)) (Row k) dims v) (h : Heap) :
    collectVarVlen false h v dims.length = serializeVlens false h (leaves dims.length v) := by
  induction dims generalizing v h with
  | nil =>
    obtain ⟨ys, rfl, -⟩ := hv
    simp only [List.length_nil, collectVarVlen, ↓reduceIte, leaves, serializeVlens]
  | cons d ds ih =>
    obtain ⟨xs, rfl, hd, hx⟩ := hv
    simp only [List.length_cons, collectVarVlen, Nat.add_one_ne_zero, ↓reduceIte,
      Nat.add_one_sub_one, leaves]
    clear hd
    induction xs generalizing h with
    | nil => rfl
    | cons x xs ihx =>
      have h2 := fun h => ihx h (fun y hy => hx y (by simp [hy]))
      simp only [collectVarVlenL, List.flatMap_cons, serializeVlens_append, ih (hx x (by simp))]
      cases serializeVlens false h (leaves ds.length x) with
      | err e => rfl
      | panic => rfl
      | ok r =>
        simp only [h2]
        cases serializeVlens false r.1 (xs.flatMap (leaves ds.length)) <;> rfl

theorem defaultFill_num (k : Kind) :
    ∃ pat, defaultFill (WTy.num k).dt false = .ok pat ∧ pat.length ∣ (WTy.num k).dt.len := by
  cases k <;> exact ⟨_, rfl, by decide⟩

theorem varEnc_num (heap : HeapFn) (hp : Option Heap) (is : List Nat) {k : Kind} {dims : List Nat}
    {v : GoVal} (hv : NumArray k dims v) (hs : ShapeOK dims k.size) :
    VarEnc heap hp is v dims.length (.num k) dims ((leaves dims.length v).flatMap numLE) := by
  have hb : ((leaves dims.length v).flatMap numLE).length = prod dims * k.size := by
    rw [numLE_length (leaves_sat hv), leaves_length hv]
  have halloc := alloc_num heap k dims v hv 0 []
  rw [List.append_nil] at halloc
  refine ⟨getDimsLimited_rect ?_ hv hs.pos, rfl, datatypeOf_num hv, ⟨is, ?_⟩, trivial, .inr trivial,
    Nat.le_trans (num_bytes_length k) (by decide), ⟨hs.rank, hs.fits⟩, ?_, defaultFill_num k, by rw [hb, dt_len_num], ?_,
    fun _ => ⟨_, halloc⟩, fun _ => ?_, shown_nums heap hv⟩
  · rintro x ⟨_, rfl, -⟩
    rfl
  · rw [writeVal_leaves _ _ _ hv, writeVals_num _ _ k _ (leaves_sat hv)]
  · rw [dt_len_num]; cases k <;> decide
  · rw [hb]; exact hs.size
  · rintro d ds b e rfl h1 h2 -
    have hr := alloc_num heap k _ _ (rect_slice (b := b) hv h2) 0 []
    rw [List.append_nil] at hr
    refine ⟨_, Eq.trans ?_ hr⟩
    rw [dt_len_num, List.length_cons, bytes_slice hv b e]
    · rfl
    · intro x hx
      obtain ⟨bits, rfl, hbits⟩ := leaves_sat hv x hx
      simp [numLE]

theorem varEnc_str (heap : HeapFn) (hp : Option Heap) (is : List Nat) (s : Bytes)
    (h0 : (0 : UInt8) ∉ s) (hl : s.length + 1 < 2 ^ 32) :
    VarEnc heap hp is (.str s) 0 (.fixStr (s.length + 1)) [] (s ++ [0]) := by
  refine ⟨rfl, rfl, rfl, ⟨is, ?_⟩, ⟨by omega, hl⟩, .inl ⟨_, rfl⟩, by simp [WTy.bytes, buildString],
    ⟨by simp, by simp⟩, by simp [WTy.dt, DT.len], ⟨[0], rfl, by simp⟩,
    by simp [WTy.dt, DT.len, prod], ?_, fun _ => ?_, by rintro - d ds b e ⟨⟩, ?_⟩
  · have e : fixedLen (.str s) = s.length + 1 := rfl
    simp only [writeVal, e, Nat.zero_lt_succ, ↓reduceIte,
      show s.length + 1 - s.length = 1 by omega, List.replicate_one]
  · simp only [List.length_append, List.length_cons, List.length_nil]; omega
  · refine ⟨⟨0 + (s.length + 1), []⟩, ?_⟩
    have hr := rdN_all (s.length + 1) 0 (s ++ [0]) (by simp)
    have hs1 : allocFixStr (s.length + 1) ⟨0, s ++ [0]⟩ = .ok (.str s, ⟨0 + (s.length + 1), []⟩) := by
      simp only [allocFixStr, P.bind_apply, hr, Res.bind_ok, P.pure_apply, getString_nul s [] h0]
    simp only [WTy.dt, alloc, allocFixStrs]
    split
    · rename_i hl1
      rw [hl1] at hs1 ⊢
      exact hs1
    · exact hs1
  · have := Shown.str (heap := heap) (s.length + 1) s (by omega) h0
    rw [show s.length + 1 - s.length = 1 by omega] at this
    rw [lift_str]
    exact this

theorem varEnc_strs (heap : HeapFn) (H : Heap) (hh : HeapHas heap H) (is : List Nat)
    {dims : List Nat} {v : GoVal} (hv : Rect .str CStr dims v) (hne : dims ≠ [])
    (hs : ShapeOK dims 16) (hin : ∀ s, .str s ∈ leaves dims.length v → H.HasStr s) :
    VarEnc heap (some H) is v dims.length .vlenStr dims
      ((leaves dims.length v).flatMap (strDesc H)) := by
  have hb : ((leaves dims.length v).flatMap (strDesc H)).length = prod dims * 16 := by
    rw [strDesc_length (leaves_sat hv), leaves_length hv]
  have halloc := alloc_strs heap H hh dims v hv hin 0 []
  rw [List.append_nil] at halloc
  refine ⟨getDimsLimited_rect ?_ hv hs.pos, rfl, datatypeOf_strs hv hne, ⟨is, ?_⟩, trivial, .inr trivial,
    by decide, ⟨hs.rank, hs.fits⟩, by decide, ⟨[0], rfl, by decide⟩, hb, ?_, fun _ => ⟨_, halloc⟩, fun _ => ?_,
    shown_strs heap H hh hv hin⟩
  · rintro x ⟨_, rfl, -⟩
    rfl
  · have e : fixedLen v = 0 := by simp [fixedLen, shouldUseVLen_strs hv hne]
    rw [writeVal_leaves _ _ _ hv, e, writeVals_str H _ (leaves_sat hv)]
  · rw [hb]; exact hs.size
  · rintro d ds b e rfl h1 h2 -
    have hr := alloc_strs heap H hh _ _ (rect_slice (b := b) hv h2) (fun s hm => hin s (by
      rw [List.length_cons, leaves_slice hv] at hm
      exact List.mem_of_mem_drop (List.mem_of_mem_take hm))) 0 []
    rw [List.append_nil] at hr
    refine ⟨_, Eq.trans ?_ hr⟩
    show alloc heap WTy.vlenStr.dt _ ⟨0, List.take ((e - b) * (prod ds * 16)) (List.drop (b * (prod ds * 16)) _)⟩ = _
    rw [List.length_cons, bytes_slice hv b e]
    · rfl
    · intro x hx
      have := strDesc_length (H := H) (xs := [x]) (by simpa using leaves_sat hv x hx)
      simpa using this

theorem varEnc_rows (heap : HeapFn) (H : Heap) (hh : HeapHas heap H) {k : Kind}
    {dims : List Nat} {v : GoVal} (hv : Rect (.slice (.num k)) (Row k) dims v)
    (hs : ShapeOK dims 16) (hpos : ∀ d ∈ dims, d ≠ 0)
    (is : List Nat) (hl : is.length = (leaves dims.length v).length)
    (ho : ∀ p ∈ (leaves dims.length v).zip is, H.objAt p.2 (rowBytes p.1)) :
    VarEnc heap (some H) is v dims.length (.vlenSeq (.num k)) dims
      (rowDescs H (leaves dims.length v) is) := by
  have hb : (rowDescs H (leaves dims.length v) is).length = prod dims * 16 := by
    rw [rowDescs_length _ _ _ hl, leaves_length hv]
  have halloc := alloc_rows heap H hh k dims v hv hpos is hl ho 0 []
  rw [List.append_nil] at halloc
  refine ⟨getDimsLimited_rect ?_ hv hs.pos, rfl, datatypeOf_rows hv hpos, ⟨[], ?_⟩, trivial, .inr trivial,
    by cases k <;> decide, ⟨hs.rank, hs.fits⟩, by simp [WTy.dt, DT.len], ⟨[0], rfl, by simp⟩, hb, ?_,
    fun _ => ⟨_, halloc⟩, fun _ => ?_, shown_seqs heap H hh hv hpos is hl ho⟩
  · rintro x ⟨_, rfl, -⟩
    rfl
  · have := writeVals_rows H k (leaves dims.length v) is [] (leaves_sat hv) hl false (fixedLen v)
    rw [List.append_nil] at this
    rw [writeVal_leaves _ _ _ hv, this]
  · rw [hb]; exact hs.size
  · rintro d ds b e rfl h1 h2 h3
    have h4 : b < e := h3.resolve_right fun h => h ⟨k, d :: ds, rfl, hv⟩
    have hz : ((leaves (ds.length + 1) (goSlice b e v))).zip ((is.drop (b * prod ds)).take ((e - b) * prod ds)) =
        (((leaves (ds.length + 1) v).zip is).drop (b * prod ds)).take ((e - b) * prod ds) := by
      rw [leaves_slice hv]
      simp only [List.zip, List.take_zipWith, List.drop_zipWith]
    have hr := alloc_rows heap H hh k _ _ (rect_slice (b := b) hv h2) (by
      intro x hx
      rw [List.mem_cons] at hx
      rcases hx with rfl | hx
      · omega
      · exact hpos x (List.mem_cons_of_mem _ hx)) ((is.drop (b * prod ds)).take ((e - b) * prod ds)) (by
        rw [List.length_cons, leaves_slice hv, List.length_take, List.length_take, List.length_drop,
          List.length_drop, hl, List.length_cons]) (by
        intro p hp
        rw [List.length_cons, hz] at hp
        exact ho p (List.mem_of_mem_drop (List.mem_of_mem_take hp))) 0 []
    rw [List.append_nil] at hr
    refine ⟨_, Eq.trans ?_ hr⟩
    have hd : List.take ((e - b) * (prod ds * 16)) (List.drop (b * (prod ds * 16))
        (rowDescs H (leaves (ds.length + 1) v) is)) =
        rowDescs H (leaves (ds.length + 1) (goSlice b e v)) ((is.drop (b * prod ds)).take ((e - b) * prod ds)) := by
      rw [rowDescs, rowDescs, hz, ← Nat.mul_assoc, ← Nat.mul_assoc, flatMap_slice]
      intro x _
      simp [descriptor]
    show alloc heap (WTy.vlenSeq (.num k)).dt _
      ⟨0, List.take ((e - b) * (prod ds * 16)) (List.drop (b * (prod ds * 16)) _)⟩ = _
    rw [List.length_cons, hd]
    rfl

/-- A value that needs no heap. -/
theorem varEnc_plain (heap : HeapFn) (hp : Option Heap) (is : List Nat) {n : Nat} {v : GoVal}
    (hv : VarPlain n v) : ∃ t dims data, VarEnc heap hp is v n t dims data := by
  cases hv with
  | num k dims v hv hs => exact ⟨_, _, _, varEnc_num heap hp is hv hs⟩
  | str s h0 hl => exact ⟨_, _, _, varEnc_str heap hp is s h0 hl⟩

theorem attrEnc_plain (heap : HeapFn) (hp : Option Heap) (is : List Nat) {v : GoVal}
    (hv : AttrPlain v) : ∃ t dims data, AttrEnc heap hp is v t dims data := by
  cases hv with
  | num k dims v hv hf hpos hfl hs => exact ⟨_, _, _, attrEnc_num heap hp is hv hf hpos hfl hs⟩
  | str s h0 hl => exact ⟨_, _, _, attrEnc_str heap hp is s h0 hl⟩

theorem collectVar_plain {n : Nat} {v : GoVal} (hv : VarPlain n v) (h : Heap) :
    collectVar false h v n = .ok (h, []) := by
  cases hv with
  | num k dims v hv hs =>
    have := hasVlen_rect (fun t => by simp) (fun x ⟨_, e, _⟩ => by rw [e]; rfl) hv hs.pos
    simp [collectVar, this]
  | str s h0 hl => rfl

/-- Collecting and encoding the value of a variable. `h0` is the heap when its strings are collected,
`h1` when its sequences are. -/
theorem var_collect (v : GoVal) (n : Nat) (hv : VarOK n v) (h0 h1 : Heap) (hw : h0.StrWF)
    (hle : (collectStrings h0 v).Le h1) :
    ∃ h2 is, collectVar false h1 v n = .ok (h2, is) ∧ h1.Le h2 ∧ h2.indices = h1.indices ∧
      ∀ H heap, h2.Le H → HeapHas heap H →
        ∃ t dims data, VarEnc heap (some H) is v n t dims data := by
  cases hv with
  | plain _ _ hv =>
    exact ⟨h1, [], collectVar_plain hv h1, Heap.Le.refl _, rfl, fun H heap _ _ => varEnc_plain _ _ _ hv⟩
  | strs dims _ hv hne hs =>
    rw [collectStrings_common (rect_common (fun x ⟨_, e, _⟩ => by rw [e]; exact trivial) hv), if_pos (shouldUseVLen_strs hv hne), collectAllStrings_leaves hv] at hle
    obtain ⟨-, -, hin⟩ := collectAllStringsL_ok (leaves dims.length v) h0 (leaves_sat hv) hw
    have := hasVlen_rect (fun t => by simp) (fun x ⟨_, e, _⟩ => by rw [e]; rfl) hv hs.pos
    refine ⟨h1, [], by simp [collectVar, this], Heap.Le.refl _, rfl, fun H heap hH hh =>
      ⟨_, _, _, varEnc_strs heap H hh [] hv hne hs (fun s hs => (hin s hs).le (hle.trans hH))⟩⟩
  | rows k dims _ hv hs hpos =>
    obtain ⟨h2, is, e1, e2, e3, -, e5, e6⟩ :=
      serializeVlens_ok k (leaves dims.length v) h1 (leaves_sat hv)
    refine ⟨h2, is, by rw [collectVar, if_pos (hasVlen_rows hv hpos), collectVarVlen_rows hv, e1],
      e2, e3, fun H heap hH hh =>
      ⟨_, _, _, varEnc_rows heap H hh hv hs hpos is e5 (fun p hp => Heap.objAt_le hH (e6 p hp))⟩⟩

end Verif.H5
