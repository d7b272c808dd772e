import Verif.Model.H5Value
import Verif.Spec.H5Value
import Verif.Lemmas.H5HeapOps
import Verif.Lemmas.CdfData
import Verif.Lemmas.H5Shown
/-!
Encoding and decoding values in HDF5 files.
-/
namespace Verif.H5
open Verif.Cdf

theorem nestTy_eq (base : GoTy) (dims : List Nat) : nestTy base dims = tyNest base dims := by
  induction dims with
  | nil => rfl
  | cons d ds ih => simp [nestTy, tyNest, ih]

theorem dataSize_eq (dims : List Nat) : dataSize dims = prod dims := by
  have : ∀ (ds : List Nat) (a : Nat), ds.foldl (· * ·) a = a * prod ds := by
    intro ds
    induction ds with
    | nil => simp [prod]
    | cons d ds ih =>
      intro a
      simp only [List.foldl_cons, ih, prod, Nat.mul_assoc]
  simp [dataSize, this]

/-! ### Reading arrays -/

theorem times_length {α : Type} {p : P α} {n : Nat} {s s' : S} {l : List α}
    (h : times p n s = .ok (l, s')) : l.length = n := by
  induction n generalizing s l with
  | zero =>
    simp only [times, P.pure_apply, Res.ok.injEq, Prod.mk.injEq] at h
    rw [← h.1]
    rfl
  | succ n ih =>
    simp only [times, P.bind_apply] at h
    cases hp : p s with
    | err e => rw [hp] at h; cases h
    | panic => rw [hp] at h; cases h
    | ok x =>
      rw [hp] at h
      simp only at h
      cases ht : times p n x.2 with
      | err e => rw [ht] at h; cases h
      | panic => rw [ht] at h; cases h
      | ok y =>
        rw [ht] at h
        simp only [P.pure_apply, Res.ok.injEq, Prod.mk.injEq] at h
        rw [← h.1, List.length_cons, ih (l := y.1) (by rw [ht, ← h.2])]

/-- Reading `a + b` elements. -/
theorem times_split {α : Type} {p : P α} {a b : Nat} {s s' : S} {l : List α}
    (h : times p (a + b) s = .ok (l, s')) :
    ∃ s1, times p a s = .ok (l.take a, s1) ∧ times p b s1 = .ok (l.drop a, s') := by
  induction a generalizing s l with
  | zero => exact ⟨s, rfl, by simpa using h⟩
  | succ a ih =>
    rw [show a + 1 + b = (a + b) + 1 by omega] at h
    simp only [times, P.bind_apply] at h ⊢
    cases hp : p s with
    | err e => rw [hp] at h; cases h
    | panic => rw [hp] at h; cases h
    | ok x =>
      rw [hp] at h
      simp only at h
      cases ht : times p (a + b) x.2 with
      | err e => rw [ht] at h; cases h
      | panic => rw [ht] at h; cases h
      | ok y =>
        rw [ht] at h
        simp only [P.pure_apply, Res.ok.injEq, Prod.mk.injEq] at h
        obtain ⟨h1, h2⟩ := h
        subst h2
        obtain ⟨s1, e1, e2⟩ := ih (l := y.1) (s := x.2) (by rw [ht])
        refine ⟨s1, ?_, ?_⟩
        · simp only [e1, P.pure_apply, ← h1, List.take_succ_cons]
        · simpa [← h1] using e2

/-- An array is read when its elements are. -/
theorem allocArr_ok {base : GoTy} {leaf : GoVal → Prop} {p : P GoVal} {dims : List Nat} {v : GoVal}
    (hv : Rect base leaf dims v) {s s' : S}
    (h : times p (prod dims) s = .ok (leaves dims.length v, s')) :
    allocArr base p dims s = .ok (v, s') := by
  induction dims generalizing v s s' with
  | nil =>
    simp only [prod, leaves, List.length_nil, times, P.bind_apply] at h
    cases hp : p s with
    | err e => rw [hp] at h; cases h
    | panic => rw [hp] at h; cases h
    | ok x =>
      rw [hp] at h
      simp only [P.pure_apply, Res.ok.injEq, Prod.mk.injEq, List.cons.injEq, and_true] at h
      rw [allocArr, hp, ← h.1, ← h.2]
  | cons d ds ih =>
    obtain ⟨xs, rfl, hd, hx⟩ := hv
    have key : ∀ (xs : List GoVal) (s : S), (∀ x ∈ xs, Rect base leaf ds x) →
        times p (xs.length * prod ds) s = .ok (xs.flatMap (leaves ds.length), s') →
        times (allocArr base p ds) xs.length s = .ok (xs, s') := by
      intro xs
      induction xs with
      | nil =>
        intro s _ h
        simp only [List.length_nil, Nat.zero_mul, times, P.pure_apply, List.flatMap_nil,
          Res.ok.injEq, Prod.mk.injEq, true_and] at h ⊢
        exact h
      | cons x xs ihx =>
        intro s hall h
        rw [List.length_cons, Nat.add_comm, Nat.add_mul, Nat.one_mul] at h
        obtain ⟨s1, e1, e2⟩ := times_split h
        have hl := leaves_length (hall x (by simp))
        rw [List.flatMap_cons, List.take_append_of_le_length (by omega),
          List.take_of_length_le (by omega)] at e1
        rw [List.flatMap_cons, List.drop_append_of_le_length (by omega),
          List.drop_of_length_le (by omega), List.nil_append] at e2
        have h1 := ih (hall x (by simp)) e1
        have h2 := ihx s1 (fun y hy => hall y (by simp [hy])) e2
        simp only [List.length_cons, times, P.bind_apply, h1, h2, P.pure_apply]
    subst hd
    have := key xs s hx (by simpa [prod, leaves] using h)
    simp only [allocArr, P.bind_apply, this, P.pure_apply, nestTy_eq]

/-- An array of sequences is read when the sequences are. -/
theorem allocSeqs_ok {heap : HeapFn} {elem : DT} {leaf : GoVal → Prop} {dims : List Nat} {v : GoVal}
    (hv : Rect (.slice (leafTy elem)) leaf dims v) (hpos : ∀ d ∈ dims, d ≠ 0) {s s' : S}
    (h : times (allocSeq heap elem) (prod dims) s = .ok (leaves dims.length v, s')) :
    allocSeqs heap elem dims s = .ok (v, s') := by
  have e : ∀ (ds : List Nat), (∀ d ∈ ds, d ≠ 0) →
      allocSeqs heap elem ds = allocArr (.slice (leafTy elem)) (allocSeq heap elem) ds := by
    intro ds
    induction ds with
    | nil => intro _; rfl
    | cons d ds ih =>
      intro hp
      have hd : d ≠ 0 := hp d (by simp)
      rw [allocSeqs, allocArr, ih (fun y hy => hp y (by simp [hy]))]
      simp only [hd, ↓reduceIte]
  rw [e dims hpos]
  exact allocArr_ok hv h

/-- Reading elements one by one. -/
theorem times_ok {α : Type} (p : P α) (enc : α → Bytes) (xs : List α) (q : Nat) (rest : Bytes)
    (h : ∀ x ∈ xs, ∀ q rest, p ⟨q, enc x ++ rest⟩ = .ok (x, ⟨q + (enc x).length, rest⟩)) :
    times p xs.length ⟨q, xs.flatMap enc ++ rest⟩ =
      .ok (xs, ⟨q + (xs.flatMap enc).length, rest⟩) := by
  induction xs generalizing q with
  | nil => rfl
  | cons x xs ih =>
    simp only [List.length_cons, List.flatMap_cons, List.append_assoc, times, P.bind_apply,
      h x (by simp), ih _ (fun y hy => h y (by simp [hy])), P.pure_apply, List.length_append]
    congr 3
    omega

/-! ### Writing arrays -/

theorem writeVals_append (be : Bool) (heap : Option Heap) (fl : Nat) (xs ys : List GoVal) (n : Nat)
    (vl : List Nat) :
    writeVals be heap fl (xs ++ ys) n vl =
      match writeVals be heap fl xs n vl with
      | .err e => .err e
      | .panic => .panic
      | .ok (b, vl) =>
        match writeVals be heap fl ys n vl with
        | .err e => .err e
        | .panic => .panic
        | .ok (b', vl) => .ok (b ++ b', vl) := by
  induction xs generalizing vl with
  | nil =>
    simp only [List.nil_append, writeVals]
    cases writeVals be heap fl ys n vl with
    | err e => rfl
    | panic => rfl
    | ok r => rfl
  | cons x xs ih =>
    simp only [List.cons_append, writeVals]
    cases writeVal be heap fl x n vl with
    | err e => rfl
    | panic => rfl
    | ok r =>
      simp only [ih]
      cases writeVals be heap fl xs n r.2 with
      | err e => rfl
      | panic => rfl
      | ok r2 =>
        simp only
        cases writeVals be heap fl ys n r2.2 with
        | err e => rfl
        | panic => rfl
        | ok r3 => simp only [List.append_assoc]

/-- An array is written as its elements in row-major order. -/
theorem writeVal_leaves (be : Bool) (heap : Option Heap) (fl : Nat) {base : GoTy}
    {leaf : GoVal → Prop} {dims : List Nat} {v : GoVal} (hv : Rect base leaf dims v)
    (vl : List Nat) :
    writeVal be heap fl v dims.length vl = writeVals be heap fl (leaves dims.length v) 0 vl := by
  induction dims generalizing v vl with
  | nil =>
    simp only [List.length_nil, leaves, writeVals]
    cases writeVal be heap fl v 0 vl with
    | err e => rfl
    | panic => rfl
    | ok r => simp
  | cons d ds ih =>
    obtain ⟨xs, rfl, -, hx⟩ := hv
    simp only [List.length_cons, leaves, writeVal, Nat.add_one_ne_zero, ↓reduceIte,
      Nat.add_one_sub_one]
    induction xs generalizing vl with
    | nil => rfl
    | cons x xs ihx =>
      have h2 := fun vl => ihx vl (fun y hy => hx y (by simp [hy]))
      simp only [List.flatMap_cons, writeVals_append, ← ih (hx x (by simp)), writeVals]
      cases writeVal be heap fl x ds.length vl with
      | err e => rfl
      | panic => rfl
      | ok r =>
        simp only [h2]
        cases writeVals be heap fl (xs.flatMap (leaves ds.length)) 0 r.2 <;> rfl

/-! ### Numbers -/

/-- Little-endian bytes of a number. -/
def numLE : GoVal → Bytes
  | .num k bits => leEnc k.size bits
  | _ => []

theorem writeVals_num (heap : Option Heap) (fl : Nat) (k : Kind) (xs : List GoVal)
    (h : ∀ x ∈ xs, NumVal k x) (n : Nat) (vl : List Nat) :
    writeVals false heap fl xs n vl = .ok (xs.flatMap numLE, vl) := by
  induction xs with
  | nil => rfl
  | cons x xs ih =>
    obtain ⟨bits, rfl, hb⟩ := h x (by simp)
    simp [writeVals, writeVal, ih (fun y hy => h y (by simp [hy])), hostEnc, numLE]

theorem allocNum_ok (k : Kind) (x : GoVal) (h : NumVal k x) (q : Nat) (rest : Bytes) :
    allocNum k false ⟨q, numLE x ++ rest⟩ = .ok (x, ⟨q + (numLE x).length, rest⟩) := by
  obtain ⟨bits, rfl, hb⟩ := h
  simp only [numLE, allocNum, P.bind_apply, rdN_append k.size _ (leEnc k.size bits) _ (by simp),
    P.pure_apply, Bool.false_eq_true, ↓reduceIte, leDec_leEnc_of_lt hb, leEnc_length]

theorem numLE_length {k : Kind} {xs : List GoVal} (h : ∀ x ∈ xs, NumVal k x) :
    (xs.flatMap numLE).length = xs.length * k.size := by
  induction xs with
  | nil => simp
  | cons x xs ih =>
    obtain ⟨bits, rfl, hb⟩ := h x (by simp)
    simp only [List.flatMap_cons, List.length_append, numLE, leEnc_length,
      ih (fun y hy => h y (by simp [hy])), List.length_cons, Nat.add_mul]
    omega

theorem numKind_num (k : Kind) : numKind (WTy.num k).dt = some (k, false) := by
  cases k <;> rfl

theorem leafTy_num (k : Kind) : leafTy (WTy.num k).dt = .num k := by
  simp [leafTy, numKind_num]

theorem dt_len_num (k : Kind) : (WTy.num k).dt.len = k.size := by
  cases k <;> rfl

theorem alloc_num_eq (heap : HeapFn) (k : Kind) (dims : List Nat) :
    alloc heap (WTy.num k).dt dims = allocArr (.num k) (allocNum k false) dims := by
  cases k <;> rfl

/-- Numbers are read as they were written. -/
theorem alloc_num (heap : HeapFn) (k : Kind) (dims : List Nat) (v : GoVal) (hv : NumArray k dims v)
    (q : Nat) (rest : Bytes) :
    alloc heap (WTy.num k).dt dims ⟨q, (leaves dims.length v).flatMap numLE ++ rest⟩ =
      .ok (v, ⟨q + ((leaves dims.length v).flatMap numLE).length, rest⟩) := by
  have h := times_ok (allocNum k false) numLE (leaves dims.length v) q rest
    (fun x hx q rest => allocNum_ok k x (leaves_sat hv x hx) q rest)
  rw [leaves_length hv] at h
  rw [alloc_num_eq]
  exact allocArr_ok hv h

/-! ### The heap of the writer and the reader -/

/-- The reader finds the objects of the heap. Addresses are stored in eight bytes. -/
structure HeapHas (heap : HeapFn) (H : Heap) : Prop where
  look : ∀ i b, H.objAt i b → heap (H.addr % 2 ^ 64) i = .ok (if b = [] then none else some b)
  few : H.objects.length < 65536

theorem Heap.objAt_lt {H : Heap} {i : Nat} {b : Bytes} (h : H.objAt i b) :
    i ≤ H.objects.length := by
  by_cases hlt : i - 1 < H.objects.length
  · have := h.1
    omega
  · have := h.2
    rw [List.getElem?_eq_none (by omega)] at this
    cases this

theorem heapHas_block (file : Bytes) (H : Heap) (post : Bytes)
    (hf : file.length < 2 ^ 63) (h : file.drop H.addr = heapBlock H.objects ++ post)
    (hn : H.objects.length < 65536) : HeapHas (heapLookup file) H := by
  have hlen := congrArg List.length h
  simp only [List.length_drop, List.length_append, heapBlock_length, collSize] at hlen
  have hge := freeSize_ge H.objects
  refine ⟨?_, hn⟩
  intro i b hb
  rw [Nat.mod_eq_of_lt (by omega)]
  have hi := Heap.objAt_lt hb
  have h0 := hb.1
  have := heapLookup_ok file H.addr H.objects post (i - 1) hf h hn (by omega)
  rw [show i - 1 + 1 = i by omega] at this
  have e := hb.2
  rw [List.getElem?_eq_getElem (by omega)] at e
  rw [this, Option.some.inj e]

/-- All strings of the table are at their index. -/
def Heap.StrWF (h : Heap) : Prop := ∀ k i, h.indices.get k = some i → h.objAt i k

/-- The string can be written. -/
def Heap.HasStr (h : Heap) (s : Bytes) : Prop := ∃ i, h.indices.get s = some i ∧ h.objAt i s

theorem Heap.HasStr.le {h h' : Heap} (hl : h.Le h') {s : Bytes} (hs : h.HasStr s) : h'.HasStr s := by
  obtain ⟨i, h1, h2⟩ := hs
  exact ⟨i, hl.2 _ _ h1, Heap.objAt_le hl h2⟩

theorem Heap.addString_ok (h : Heap) (s : Bytes) (hw : h.StrWF) :
    (h.addString s).StrWF ∧ h.Le (h.addString s) ∧ (h.addString s).HasStr s := by
  unfold Heap.addString
  cases hs : h.indices.get s with
  | some i => exact ⟨hw, Heap.Le.refl h, i, hs, hw s i hs⟩
  | none =>
    simp only
    have hget : ∀ k', (h.indices.set s (h.objects.length + 1)).get k' =
        if k' = s then some (h.objects.length + 1) else h.indices.get k' := by
      intro k'
      rw [GoMap.get_set]
    have hle : h.Le { h with objects := h.objects ++ [s],
                             indices := h.indices.set s (h.objects.length + 1) } := by
      refine ⟨⟨[s], rfl⟩, ?_⟩
      intro k i hi
      show (h.indices.set s (h.objects.length + 1)).get k = some i
      rw [hget]
      by_cases e : k = s
      · subst e; rw [hs] at hi; cases hi
      · rw [if_neg e]; exact hi
    refine ⟨?_, hle, h.objects.length + 1, by simp [hget], by omega, by simp⟩
    intro k i hi
    simp only [hget] at hi
    by_cases e : k = s
    · rw [if_pos e] at hi
      obtain rfl : h.objects.length + 1 = i := by simpa using hi
      subst e
      exact ⟨by omega, by simp⟩
    · rw [if_neg e] at hi
      exact Heap.objAt_le hle (hw k i hi)

theorem collectAllStringsL_append (h : Heap) (xs ys : List GoVal) :
    collectAllStringsL h (xs ++ ys) = collectAllStringsL (collectAllStringsL h xs) ys := by
  induction xs generalizing h with
  | nil => rfl
  | cons x xs ih => simp only [List.cons_append, collectAllStringsL, ih]

theorem collectAllStrings_leaves {base : GoTy} {leaf : GoVal → Prop} {dims : List Nat} {v : GoVal}
    (hv : Rect base leaf dims v) (h : Heap) :
    collectAllStrings h v = collectAllStringsL h (leaves dims.length v) := by
  induction dims generalizing v h with
  | nil => simp [leaves, collectAllStringsL]
  | cons d ds ih =>
    obtain ⟨xs, rfl, -, hx⟩ := hv
    simp only [collectAllStrings, List.length_cons, leaves]
    clear d
    induction xs generalizing h with
    | nil => rfl
    | cons x xs ihx =>
      simp only [collectAllStringsL, List.flatMap_cons, collectAllStringsL_append,
        ih (hx x (by simp)), ihx _ (fun y hy => hx y (by simp [hy]))]

theorem collectAllStringsL_ok (xs : List GoVal) (h : Heap) (hx : ∀ x ∈ xs, CStr x) (hw : h.StrWF) :
    (collectAllStringsL h xs).StrWF ∧ h.Le (collectAllStringsL h xs) ∧
      ∀ s, .str s ∈ xs → (collectAllStringsL h xs).HasStr s := by
  induction xs generalizing h with
  | nil => exact ⟨hw, Heap.Le.refl h, fun s hs => by simp at hs⟩
  | cons x xs ih =>
    obtain ⟨s, rfl, -, -⟩ := hx x (by simp)
    obtain ⟨h1, h2, h3⟩ := Heap.addString_ok h s hw
    obtain ⟨g1, g2, g3⟩ := ih (h.addString s) (fun y hy => hx y (by simp [hy])) h1
    refine ⟨g1, h2.trans g2, ?_⟩
    intro t ht
    simp only [List.mem_cons, GoVal.str.injEq] at ht
    rcases ht with rfl | ht
    · exact h3.le g2
    · exact g3 t ht

/-! ### Strings -/

/-- The descriptor of a string. -/
def strDesc (H : Heap) : GoVal → Bytes
  | .str s => descriptor s.length H.addr ((H.indices.get s).getD 0)
  | _ => []

theorem descriptor_length (a b c : Nat) : (descriptor a b c).length = 16 := by
  simp [descriptor]

theorem leEnc8_mod (n : Nat) : leEnc 8 n = leEnc 8 (n % 2 ^ 64) := by
  have h := leEnc_leDec (leEnc 8 n)
  rw [leEnc_length, leDec_leEnc] at h
  exact h.symm

theorem readDescriptor_mod (len addr idx q : Nat) (rest : Bytes) (h1 : len < 2 ^ 32)
    (h3 : idx < 2 ^ 32) :
    readDescriptor ⟨q, descriptor len addr idx ++ rest⟩ =
      .ok ((len, addr % 2 ^ 64, idx), ⟨q + 16, rest⟩) := by
  have h2 : addr % 2 ^ 64 < 2 ^ 64 := Nat.mod_lt _ (by decide)
  have e : leEnc 8 addr = leEnc 8 (addr % 2 ^ 64) := leEnc8_mod addr
  simp only [descriptor, e, List.append_assoc, readDescriptor, P.bind_apply, read32_app _ _ _ h1,
    read64_app _ _ _ h2, read32_app _ _ _ h3, P.pure_apply]

theorem readDescriptor_ok (len addr idx q : Nat) (rest : Bytes) (h1 : len < 2 ^ 32)
    (h2 : addr < 2 ^ 64) (h3 : idx < 2 ^ 32) :
    readDescriptor ⟨q, descriptor len addr idx ++ rest⟩ = .ok ((len, addr, idx), ⟨q + 16, rest⟩) := by
  rw [readDescriptor_mod _ _ _ _ _ h1 h3, Nat.mod_eq_of_lt h2]

theorem getString_clean (s : Bytes) (h : (0 : UInt8) ∉ s) : getString s = s := by
  unfold getString
  induction s with
  | nil => rfl
  | cons a s ih =>
    have ha : (a != 0) = true := by
      simp only [bne_iff_ne, ne_eq]
      intro e
      exact h (by simp [e])
    rw [List.takeWhile_cons, if_pos ha, ih (fun h' => h (by simp [h']))]

theorem writeVals_str (H : Heap) (xs : List GoVal) (h : ∀ x ∈ xs, CStr x) (n : Nat) (vl : List Nat)
    (be : Bool) : writeVals be (some H) 0 xs n vl = .ok (xs.flatMap (strDesc H), vl) := by
  induction xs with
  | nil => rfl
  | cons x xs ih =>
    obtain ⟨s, rfl, -, -⟩ := h x (by simp)
    simp [writeVals, writeVal, ih (fun y hy => h y (by simp [hy])), strDesc]

theorem allocVlenStr_ok (heap : HeapFn) (H : Heap) (hh : HeapHas heap H) (x : GoVal) (hx : CStr x)
    (hs : ∀ s, x = .str s → H.HasStr s) (q : Nat) (rest : Bytes) :
    allocVlenStr heap ⟨q, strDesc H x ++ rest⟩ = .ok (x, ⟨q + (strDesc H x).length, rest⟩) := by
  obtain ⟨s, rfl, h0, hl⟩ := hx
  obtain ⟨i, hi, ho⟩ := hs s rfl
  have hlt := Heap.objAt_lt ho
  have hf := hh.few
  simp only [strDesc, hi, Option.getD_some, descriptor_length, allocVlenStr, P.bind_apply,
    readDescriptor_mod _ _ _ q rest hl (show i < 2 ^ 32 by omega)]
  by_cases e : s = []
  · subst e
    simp only [List.length_nil, ↓reduceIte, P.pure_apply]
  · have : ¬ s.length = 0 := by simpa using e
    simp only [this, ↓reduceIte, P.bind_apply, hh.look i s ho, e, P.lift, P.pure_apply,
      Option.getD_some, getString_clean s h0]

theorem strDesc_length {H : Heap} {xs : List GoVal} (h : ∀ x ∈ xs, CStr x) :
    (xs.flatMap (strDesc H)).length = xs.length * 16 := by
  induction xs with
  | nil => rfl
  | cons x xs ih =>
    obtain ⟨s, rfl, -, -⟩ := h x (by simp)
    simp only [List.flatMap_cons, List.length_append, strDesc, descriptor_length,
      ih (fun y hy => h y (by simp [hy])), List.length_cons]
    omega

/-- Strings are read as they were written. -/
theorem alloc_strs (heap : HeapFn) (H : Heap) (hh : HeapHas heap H) (dims : List Nat) (v : GoVal)
    (hv : Rect .str CStr dims v) (hs : ∀ s, .str s ∈ leaves dims.length v → H.HasStr s)
    (q : Nat) (rest : Bytes) :
    alloc heap WTy.vlenStr.dt dims ⟨q, (leaves dims.length v).flatMap (strDesc H) ++ rest⟩ =
      .ok (v, ⟨q + ((leaves dims.length v).flatMap (strDesc H)).length, rest⟩) := by
  have h := times_ok (allocVlenStr heap) (strDesc H) (leaves dims.length v) q rest
    (fun x hx q rest => allocVlenStr_ok heap H hh x (leaves_sat hv x hx)
      (fun s e => hs s (e ▸ hx)) q rest)
  rw [leaves_length hv] at h
  exact allocArr_ok hv h

/-! ### Sequences of numbers -/

/-- The bytes of a sequence. -/
def rowBytes : GoVal → Bytes
  | .slice _ ys => ys.flatMap numLE
  | _ => []

/-- Descriptors of the rows at the given indices. -/
def rowDescs (H : Heap) (xs : List GoVal) (is : List Nat) : Bytes :=
  (xs.zip is).flatMap fun p => descriptor (rowLen p.1) H.addr p.2

theorem writeVals_rows (H : Heap) (k : Kind) (xs : List GoVal) (is rest : List Nat)
    (h : ∀ x ∈ xs, Row k x) (hl : is.length = xs.length) (be : Bool) (fl : Nat) :
    writeVals be (some H) fl xs 0 (is ++ rest) = .ok (rowDescs H xs is, rest) := by
  induction xs generalizing is with
  | nil =>
    obtain rfl : is = [] := by simpa using hl
    rfl
  | cons x xs ih =>
    obtain ⟨ys, rfl, -, -⟩ := h x (by simp)
    cases is with
    | nil => simp at hl
    | cons i is =>
      have := ih is (fun y hy => h y (by simp [hy])) (by simpa using hl)
      simp only [List.cons_append, writeVals, writeVal, ↓reduceIte, this]
      rfl

theorem times_rows (heap : HeapFn) (H : Heap) (hh : HeapHas heap H) (k : Kind) (xs : List GoVal)
    (is : List Nat) (h : ∀ x ∈ xs, Row k x) (hl : is.length = xs.length)
    (ho : ∀ p ∈ xs.zip is, H.objAt p.2 (rowBytes p.1)) (q : Nat) (rest : Bytes) :
    times (allocSeq heap (WTy.num k).dt) xs.length ⟨q, rowDescs H xs is ++ rest⟩ =
      .ok (xs, ⟨q + (rowDescs H xs is).length, rest⟩) := by
  induction xs generalizing is q with
  | nil =>
    obtain rfl : is = [] := by simpa using hl
    rfl
  | cons x xs ih =>
    obtain ⟨ys, rfl, hy, hyl⟩ := h x (by simp)
    cases is with
    | nil => simp at hl
    | cons i is =>
      have h1 := ih is (fun y hy => h y (by simp [hy])) (by simpa using hl)
        (fun p hp => ho p (by simp [hp]))
      have hob := ho (.slice (.num k) ys, i) (by simp)
      have hlt := Heap.objAt_lt hob
      have hf := hh.few
      have hstep : allocSeq heap (WTy.num k).dt
          ⟨q, descriptor ys.length H.addr i ++ (rowDescs H xs is ++ rest)⟩ =
          .ok (.slice (.num k) ys, ⟨q + 16, rowDescs H xs is ++ rest⟩) := by
        simp only [allocSeq, P.bind_apply,
          readDescriptor_mod _ _ _ q _ hyl (show i < 2 ^ 32 by simp only at hlt; omega),
          leafTy_num]
        have hleaf : allocLeaf heap (WTy.num k).dt = allocNum k false := by
          simp only [allocLeaf, numKind_num]
        by_cases e : ys = []
        · subst e
          have hz : numLE (.num k 0) = List.replicate (WTy.num k).dt.len 0 := by
            cases k <;> rfl
          have h0 := allocNum_ok k (.num k 0) ⟨0, rfl, by cases k <;> decide⟩ 0 []
          rw [List.append_nil, hz] at h0
          simp only [List.length_nil, ↓reduceIte, hleaf, P.bind_apply, onBytes, h0, P.lift,
            P.pure_apply]
        · have hne : ¬ ys.length = 0 := by simpa using e
          have hb : rowBytes (.slice (.num k) ys) ≠ [] := by
            intro hc
            have := numLE_length hy
            simp only [rowBytes] at hc
            rw [hc] at this
            have hk : 0 < k.size := by cases k <;> decide
            simp only [List.length_nil] at this
            have := Nat.mul_pos (Nat.pos_of_ne_zero hne) hk
            omega
          have ht := times_ok (allocNum k false) numLE ys 0 []
            (fun x hx q rest => allocNum_ok k x (hy x hx) q rest)
          rw [List.append_nil] at ht
          have hlook := hh.look i _ hob
          rw [if_neg hb] at hlook
          simp only [hne, ↓reduceIte, P.bind_apply, hlook, P.lift, hleaf,
            onBytes, rowBytes, ht, P.pure_apply]
      have hcat : rowDescs H (.slice (.num k) ys :: xs) (i :: is) =
          descriptor ys.length H.addr i ++ rowDescs H xs is := rfl
      simp only [hcat, List.length_cons, List.append_assoc, times, P.bind_apply, hstep, h1,
        P.pure_apply, List.length_append, descriptor_length]
      congr 3
      omega

theorem rowDescs_length (H : Heap) (xs : List GoVal) (is : List Nat) (h : is.length = xs.length) :
    (rowDescs H xs is).length = xs.length * 16 := by
  induction xs generalizing is with
  | nil => rfl
  | cons x xs ih =>
    cases is with
    | nil => simp at h
    | cons i is =>
      have := ih is (by simpa using h)
      simp only [rowDescs, List.zip_cons_cons, List.flatMap_cons, List.length_append,
        descriptor_length, List.length_cons] at this ⊢
      omega

/-- Sequences are read as they were written. -/
theorem alloc_rows (heap : HeapFn) (H : Heap) (hh : HeapHas heap H) (k : Kind) (dims : List Nat)
    (v : GoVal) (hv : Rect (.slice (.num k)) (Row k) dims v) (hpos : ∀ d ∈ dims, d ≠ 0)
    (is : List Nat) (hl : is.length = (leaves dims.length v).length)
    (ho : ∀ p ∈ (leaves dims.length v).zip is, H.objAt p.2 (rowBytes p.1)) (q : Nat) (rest : Bytes) :
    alloc heap (WTy.vlenSeq (.num k)).dt dims ⟨q, rowDescs H (leaves dims.length v) is ++ rest⟩ =
      .ok (v, ⟨q + (rowDescs H (leaves dims.length v) is).length, rest⟩) := by
  have h := times_rows heap H hh k (leaves dims.length v) is (leaves_sat hv) hl ho q rest
  rw [leaves_length hv] at h
  have hv' : Rect (.slice (leafTy (WTy.num k).dt)) (Row k) dims v := by
    rw [leafTy_num]
    exact hv
  exact allocSeqs_ok hv' hpos h

/-! ### What the bytes mean -/

theorem storedNum_num (k : Kind) : storedNum false k = (WTy.num k).dt := by
  cases k <;> rfl

theorem shown_num (heap : HeapFn) (k : Kind) (x : GoVal) (hx : NumVal k x) :
    Shown heap (WTy.num k).dt [] (numLE x) (GoVal.lift x) := by
  obtain ⟨bits, rfl, hb⟩ := hx
  have := Shown.num (heap := heap) false k bits hb
  rw [storedNum_num] at this
  rw [lift_num]
  exact this

theorem goTy_num (k : Kind) (ds : List Nat) : goTy (WTy.num k).dt ds = sliceTy (.num k) ds := by
  cases k <;> rfl

theorem byElement_num (k : Kind) : ByElement (WTy.num k).dt := by
  cases k <;> simp [WTy.dt, Kind.isFloat, ByElement, Kind.size]

theorem num_not_vlen (k : Kind) : ¬ ∃ n e, (WTy.num k).dt = .vlen n false e := by
  rintro ⟨n, e, h⟩
  cases k <;> cases h

theorem shown_nums (heap : HeapFn) {k : Kind} {dims : List Nat} {v : GoVal} (hv : NumArray k dims v) :
    Shown heap (WTy.num k).dt dims ((leaves dims.length v).flatMap numLE) (GoVal.lift v) := by
  rw [List.flatMap_def]
  exact shown_rect (base := .num k) (byElement_num k) (goTy_num k) (fun h => absurd h (num_not_vlen k)) hv
    (Pairs.map numLE _ fun x hx => shown_num heap k x (leaves_sat hv x hx))

theorem descriptor_eq (n addr i : Nat) :
    descriptor n addr i = leEnc 4 n ++ (leEnc 8 (addr % 2 ^ 64) ++ leEnc 4 i) := by
  rw [descriptor, leEnc8_mod, List.append_assoc]

theorem shown_strs (heap : HeapFn) (H : Heap) (hh : HeapHas heap H) {dims : List Nat} {v : GoVal}
    (hv : Rect .str CStr dims v) (hs : ∀ s, .str s ∈ leaves dims.length v → H.HasStr s) :
    Shown heap WTy.vlenStr.dt dims ((leaves dims.length v).flatMap (strDesc H)) (GoVal.lift v) := by
  rw [List.flatMap_def]
  refine shown_rect (dt := WTy.vlenStr.dt) (base := .str) trivial (fun ds => rfl) (by rintro ⟨n, e, h⟩; cases h) hv (Pairs.map (strDesc H) _ fun x hx => ?_)
  obtain ⟨s, rfl, h0, hl⟩ := leaves_sat hv x hx
  obtain ⟨i, hi, ho⟩ := hs s hx
  have hlt := Heap.objAt_lt ho
  have hf := hh.few
  have hm : H.addr % 2 ^ 64 < 2 ^ 64 := Nat.mod_lt _ (by decide)
  simp only [strDesc, hi, Option.getD_some, descriptor_eq, lift_str]
  by_cases e : s = []
  · subst e
    exact Shown.emptyStr (.str 1) _ i hm (by omega)
  · have hlook := hh.look i s ho
    rw [if_neg e] at hlook
    exact Shown.vlenStr (.str 1) _ i s (List.length_pos_iff.2 e) hl hm (by omega) h0 hlook

/-- One sequence. -/
theorem shown_seq (heap : HeapFn) (H : Heap) (hh : HeapHas heap H) {k : Kind} (x : GoVal) (hx : Row k x) (i : Nat)
    (ho : H.objAt i (rowBytes x)) :
    Shown heap (WTy.vlenSeq (.num k)).dt [] (descriptor (rowLen x) H.addr i) (GoVal.lift x) := by
  obtain ⟨ys, rfl, hy, hl⟩ := hx
  have hlt := Heap.objAt_lt ho
  have hf := hh.few
  have hm : H.addr % 2 ^ 64 < 2 ^ 64 := Nat.mod_lt _ (by decide)
  rw [descriptor_eq, lift_slice]
  have hgo : goTy (WTy.num k).dt [] = GoTy.lift (.num k) := goTy_num k []
  rw [← hgo]
  show Shown heap (.vlen 16 false (WTy.num k).dt) [] (leEnc 4 ys.length ++ _) _
  by_cases e : ys = []
  · subst e
    refine Shown.emptySeq _ _ _ hm (by omega) ?_
    rw [← storedNum_num]
    exact .num false k
  · have hlook := hh.look i _ ho
    have hne : rowBytes (.slice (.num k) ys) ≠ [] := by
      intro hc
      have := numLE_length hy
      simp only [rowBytes] at hc
      rw [hc] at this
      have hk : 0 < k.size := by cases k <;> decide
      have := Nat.mul_pos (List.length_pos_iff.2 e) hk
      simp only [List.length_nil] at *
      omega
    rw [if_neg hne] at hlook
    have h := Shown.seq (heap := heap) (WTy.num k).dt (H.addr % 2 ^ 64) i ys.length (fun j => (ys.map numLE).getD j [])
      (fun j => (ys.map GoVal.lift).getD j .nil) [] (List.length_pos_iff.2 e) hl hm (by omega) (by
        rw [hlook, List.append_nil]
        have := map_getD_range (ys.map numLE) []
        rw [List.length_map] at this
        rw [List.flatMap_def, this]
        simp only [rowBytes, List.flatMap_def]) (by
        intro j hj
        have := shown_num heap k ys[j] (hy _ (List.getElem_mem hj))
        simpa [hj] using this)
    have e2 := map_getD_range (ys.map GoVal.lift) TVal.nil
    rw [List.length_map] at e2
    rw [e2] at h
    exact h

theorem shown_seqs (heap : HeapFn) (H : Heap) (hh : HeapHas heap H) {k : Kind} {dims : List Nat}
    {v : GoVal} (hv : Rect (.slice (.num k)) (Row k) dims v) (hpos : ∀ d ∈ dims, d ≠ 0)
    (is : List Nat) (hl : is.length = (leaves dims.length v).length)
    (ho : ∀ p ∈ (leaves dims.length v).zip is, H.objAt p.2 (rowBytes p.1)) :
    Shown heap (WTy.vlenSeq (.num k)).dt dims (rowDescs H (leaves dims.length v) is) (GoVal.lift v) := by
  have hgo : ∀ ds, goTy (WTy.vlenSeq (.num k)).dt ds = sliceTy (GoTy.lift (.slice (.num k))) ds := by
    intro ds
    show sliceTy (.slice (goTy (WTy.num k).dt [])) ds = _
    rw [goTy_num]
    rfl
  rw [rowDescs, List.flatMap_def]
  refine shown_rect (dt := (WTy.vlenSeq (.num k)).dt) (base := .slice (.num k)) trivial hgo (fun _ => hpos) hv ?_
  have hs := leaves_sat hv
  generalize leaves dims.length v = xs at *
  clear hv
  induction xs generalizing is with
  | nil =>
    cases is with
    | nil => exact .nil
    | cons i is => simp at hl
  | cons x xs ih =>
    cases is with
    | nil => simp at hl
    | cons i is =>
      rw [List.zip_cons_cons, List.map_cons]
      exact .cons (shown_seq heap H hh x (hs x (by simp)) i (ho (x, i) (by simp)))
        (ih is (by simpa using hl) (fun p hp => ho p (by simp [hp])) (fun y hy => hs y (by simp [hy])))

theorem vlenElems_num (k : Kind) (ys : List GoVal) (h : ∀ y ∈ ys, NumVal k y) :
    vlenElems false ys = .ok (ys.flatMap numLE) := by
  induction ys with
  | nil => rfl
  | cons y ys ih =>
    obtain ⟨bits, rfl, -⟩ := h y (by simp)
    simp only [vlenElems, vlenElem, ih (fun z hz => h z (by simp [hz])), hostEnc,
      Bool.false_eq_true, ↓reduceIte, List.flatMap_cons, numLE]

theorem Heap.addObject_le (h : Heap) (b : Bytes) : h.Le (h.addObject b).1 :=
  ⟨⟨[b], rfl⟩, fun _ _ h => h⟩

theorem Heap.addObject_at (h : Heap) (b : Bytes) : (h.addObject b).1.objAt (h.addObject b).2 b :=
  ⟨by simp [Heap.addObject], by simp [Heap.addObject]⟩

/-- The sequences go to the heap. -/
theorem serializeVlens_ok (k : Kind) (xs : List GoVal) (h : Heap) (hx : ∀ x ∈ xs, Row k x) :
    ∃ h' is, serializeVlens false h xs = .ok (h', is) ∧ h.Le h' ∧ h'.indices = h.indices ∧
      h'.addr = h.addr ∧ is.length = xs.length ∧
      ∀ p ∈ xs.zip is, h'.objAt p.2 (rowBytes p.1) := by
  induction xs generalizing h with
  | nil => exact ⟨h, [], rfl, Heap.Le.refl h, rfl, rfl, rfl, fun p hp => by simp at hp⟩
  | cons x xs ih =>
    obtain ⟨ys, rfl, hy, -⟩ := hx x (by simp)
    obtain ⟨h', is, e1, e2, e3, e4, e5, e6⟩ := ih (h.addObject (ys.flatMap numLE)).1
      (fun y hy => hx y (by simp [hy]))
    refine ⟨h', (h.addObject (ys.flatMap numLE)).2 :: is, ?_, (h.addObject_le _).trans e2, e3, e4,
      by simp [e5], ?_⟩
    · simp only [serializeVlens, serializeVlen, vlenElems_num k ys hy, e1]
    · intro p hp
      simp only [List.zip_cons_cons, List.mem_cons] at hp
      rcases hp with rfl | hp
      · exact Heap.objAt_le e2 (h.addObject_at _)
      · exact e6 p hp

theorem serializeVlens_append (be : Bool) (h : Heap) (xs ys : List GoVal) :
    serializeVlens be h (xs ++ ys) =
      match serializeVlens be h xs with
      | .err e => .err e
      | .panic => .panic
      | .ok (h, is) =>
        match serializeVlens be h ys with
        | .err e => .err e
        | .panic => .panic
        | .ok (h, is') => .ok (h, is ++ is') := by
  induction xs generalizing h with
  | nil =>
    simp only [List.nil_append, serializeVlens]
    cases serializeVlens be h ys <;> rfl
  | cons x xs ih =>
    simp only [List.cons_append, serializeVlens]
    cases serializeVlen be h x with
    | err e => rfl
    | panic => rfl
    | ok r =>
      simp only [ih]
      cases serializeVlens be r.1 xs with
      | err e => rfl
      | panic => rfl
      | ok r2 =>
        simp only
        cases serializeVlens be r2.1 ys <;> rfl

/-! ### Shapes -/

theorem varying_rect {base : GoTy} {leaf : GoVal → Prop} {d : Nat} {ds : List Nat}
    {xs : List GoVal} (hx : ∀ x ∈ xs, Rect base leaf (d :: ds) x) :
    varying (tyNest base (d :: ds)) xs = false := by
  cases xs with
  | nil => rfl
  | cons x xs =>
    simp only [tyNest, varying, List.any_eq_false]
    intro y hy
    obtain ⟨as, rfl, ha, -⟩ := hx x (by simp)
    obtain ⟨bs, rfl, hb, -⟩ := hx y (by simp [hy])
    simp [rowLen, ha, hb]

/-- The shape of an array. -/
theorem attrDims_rect {base : GoTy} {leaf : GoVal → Prop} (hb : ∀ t, base ≠ .slice t)
    (hleaf : ∀ x, leaf x → attrDims x = []) {dims : List Nat} {v : GoVal} (hv : Rect base leaf dims v)
    (hpos : ∀ d ∈ dims.dropLast, d ≠ 0) : attrDims v = dims := by
  induction dims generalizing v with
  | nil => exact hleaf v hv
  | cons d ds ih =>
    obtain ⟨xs, rfl, hd, hx⟩ := hv
    have hvar : varying (tyNest base ds) xs = false := by
      cases ds with
      | nil =>
        cases hbase : base with
        | slice t => exact absurd hbase (hb t)
        | _ => rfl
      | cons d' ds => exact varying_rect hx
    simp only [attrDims, hvar, Bool.false_eq_true, ↓reduceIte, hd, List.cons.injEq, true_and]
    cases xs with
    | nil =>
      cases ds with
      | nil => rfl
      | cons d' ds =>
        exact absurd hd.symm (hpos d (by simp))
    | cons x xs =>
      refine ih (hx x (by simp)) (fun e he => hpos e ?_)
      cases ds with
      | nil => simp at he
      | cons d' ds => simpa using .inr he

theorem varying_uneven {k : Kind} {xs : List GoVal} (hx : ∀ x ∈ xs, Row k x)
    (h : ∃ e a b, GoVal.slice e a ∈ xs ∧ GoVal.slice e b ∈ xs ∧ a.length ≠ b.length) :
    varying (.slice (.num k)) xs = true := by
  obtain ⟨e, a, b, ha, hb, hne⟩ := h
  cases xs with
  | nil => simp at ha
  | cons x xs =>
    simp only [varying, List.any_eq_true, bne_iff_ne]
    by_cases h1 : a.length = rowLen x
    · have hbx : GoVal.slice e b ∈ xs := by
        simp only [List.mem_cons] at hb
        rcases hb with rfl | hb
        · exact absurd h1 hne
        · exact hb
      exact ⟨_, hbx, fun h => hne (h1.trans h.symm)⟩
    · have hax : GoVal.slice e a ∈ xs := by
        simp only [List.mem_cons] at ha
        rcases ha with rfl | ha
        · exact absurd rfl h1
        · exact ha
      exact ⟨_, hax, h1⟩

/-- The shape of an array of sequences. -/
theorem attrDims_ragged {k : Kind} {dims : List Nat} {v : GoVal}
    (hv : Rect (.slice (.num k)) (Row k) dims v) (hpos : ∀ d ∈ dims, d ≠ 0)
    (hu : Uneven dims.length v) : attrDims v = dims := by
  induction dims generalizing v with
  | nil => exact hu.elim
  | cons d ds ih =>
    obtain ⟨xs, rfl, hd, hx⟩ := hv
    cases ds with
    | nil =>
      have := varying_uneven hx hu
      simp only [tyNest, attrDims, this, ↓reduceIte, hd]
    | cons d' ds =>
      have hvar := varying_rect hx
      simp only [attrDims, hvar, Bool.false_eq_true, ↓reduceIte, hd, List.cons.injEq, true_and]
      cases xs with
      | nil => exact absurd hd.symm (hpos d (by simp))
      | cons x xs =>
        exact ih (hx x (by simp)) (fun e he => hpos e (by simp [he])) (hu x (by simp))

/-- The sequences of an attribute go to the heap in row-major order. -/
theorem collectAttrVlen_ragged {k : Kind} {dims : List Nat} {v : GoVal}
    (hv : Rect (.slice (.num k)) (Row k) dims v) (hu : Uneven dims.length v) (h : Heap) :
    collectAttrVlen false h v = serializeVlens false h (leaves dims.length v) := by
  induction dims generalizing v h with
  | nil => exact hu.elim
  | cons d ds ih =>
    obtain ⟨xs, rfl, hd, hx⟩ := hv
    cases ds with
    | nil =>
      have := varying_uneven hx hu
      simp only [tyNest, collectAttrVlen, this, ↓reduceIte]
      have e : leaves [d].length (.slice (.slice (.num k)) xs) = xs := by
        simp only [List.length_cons, List.length_nil, leaves]
        clear hd hx hu this
        induction xs with
        | nil => rfl
        | cons x xs ih => simp [List.flatMap_cons, ih]
      rw [e]
    | cons d' ds =>
      have hvar := varying_rect hx
      simp only [collectAttrVlen, hvar, Bool.false_eq_true, ↓reduceIte]
      simp only [List.length_cons, leaves]
      clear hd hvar
      have hu' : ∀ x ∈ xs, Uneven (ds.length + 1) x := hu
      clear hu
      induction xs generalizing h with
      | nil => rfl
      | cons x xs ihx =>
        have h1 := ih (hx x (by simp)) (hu' x (by simp)) h
        simp only [List.length_cons] at h1
        have h2 := fun h => ihx h (fun y hy => hx y (by simp [hy])) (fun y hy => hu' y (by simp [hy]))
        simp only [collectAttrVlenL, List.flatMap_cons, serializeVlens_append, h1]
        cases serializeVlens false h (leaves (ds.length + 1) x) with
        | err e => rfl
        | panic => rfl
        | ok r =>
          simp only [h2]
          cases serializeVlens false r.1 (xs.flatMap (leaves (ds.length + 1))) <;> rfl

/-- Without sequences nothing goes to the heap. -/
theorem collectAttrVlen_rect {base : GoTy} {leaf : GoVal → Prop} (hb : ∀ t, base ≠ .slice t)
    (hleaf : ∀ x, leaf x → ∀ h, collectAttrVlen false h x = .ok (h, [])) {dims : List Nat} {v : GoVal}
    (hv : Rect base leaf dims v) (h : Heap) : collectAttrVlen false h v = .ok (h, []) := by
  induction dims generalizing v h with
  | nil => exact hleaf v hv h
  | cons d ds ih =>
    obtain ⟨xs, rfl, hd, hx⟩ := hv
    have hvar : varying (tyNest base ds) xs = false := by
      cases ds with
      | nil =>
        cases hbase : base with
        | slice t => exact absurd hbase (hb t)
        | _ => rfl
      | cons d' ds => exact varying_rect hx
    simp only [collectAttrVlen, hvar, Bool.false_eq_true, ↓reduceIte]
    clear hd hvar
    induction xs with
    | nil => rfl
    | cons x xs ihx =>
      simp only [collectAttrVlenL, ih (hx x (by simp)), ihx (fun y hy => hx y (by simp [hy])),
        List.append_nil]

/-! ### Types -/

theorem stripTy_nest (base : GoTy) (dims : List Nat) :
    stripTy dims.length (tyNest base dims) = base := by
  induction dims with
  | nil => cases base <;> rfl
  | cons d ds ih => simpa [tyNest, stripTy] using ih

theorem baseTy_nest (base : GoTy) (dims : List Nat) : baseTy (tyNest base dims) = baseTy base := by
  induction dims with
  | nil => rfl
  | cons d ds ih => simpa [tyNest, baseTy] using ih

theorem tyDepth_nest (base : GoTy) (dims : List Nat) :
    tyDepth (tyNest base dims) = tyDepth base + dims.length := by
  induction dims with
  | nil => rfl
  | cons d ds ih => simp only [tyNest, tyDepth, ih, List.length_cons]; omega

theorem rect_ty {base : GoTy} {leaf : GoVal → Prop} (hleaf : ∀ x, leaf x → x.ty = base)
    {dims : List Nat} {v : GoVal} (hv : Rect base leaf dims v) : v.ty = tyNest base dims := by
  cases dims with
  | nil => exact hleaf v hv
  | cons d ds =>
    obtain ⟨xs, rfl, -, -⟩ := hv
    rfl

theorem datatypeOf_num {k : Kind} {dims : List Nat} {v : GoVal} (hv : NumArray k dims v) :
    datatypeOf v dims.length = .ok (.num k) := by
  have : v.ty = tyNest (.num k) dims := rect_ty (fun x ⟨_, e, _⟩ => by rw [e]; rfl) hv
  simp only [datatypeOf, dtOf, this, stripTy_nest]

theorem shouldUseVLen_strs {dims : List Nat} {v : GoVal} (hv : Rect .str CStr dims v)
    (hne : dims ≠ []) : shouldUseVLen v = true := by
  cases dims with
  | nil => exact absurd rfl hne
  | cons d ds =>
    obtain ⟨xs, rfl, -, -⟩ := hv
    simp [shouldUseVLen, baseTy_nest, baseTy]

theorem datatypeOf_strs {dims : List Nat} {v : GoVal} (hv : Rect .str CStr dims v)
    (hne : dims ≠ []) : datatypeOf v dims.length = .ok .vlenStr := by
  have : v.ty = tyNest .str dims := rect_ty (fun x ⟨_, e, _⟩ => by rw [e]; rfl) hv
  simp only [datatypeOf, dtOf, this, stripTy_nest, shouldUseVLen_strs hv hne, ↓reduceIte]

theorem navigate_rect {base : GoTy} {leaf : GoVal → Prop} {dims : List Nat} {v : GoVal}
    (hl : ∀ x, leaf x → navigateToFirst x 0 = x)
    (hv : Rect base leaf dims v) (hpos : ∀ d ∈ dims, d ≠ 0) :
    leaf (navigateToFirst v dims.length) := by
  induction dims generalizing v with
  | nil => rw [List.length_nil, hl v hv]; exact hv
  | cons d ds ih =>
    obtain ⟨xs, rfl, hd, hx⟩ := hv
    cases xs with
    | nil => exact absurd hd.symm (hpos d (by simp))
    | cons x xs =>
      simp only [List.length_cons, navigateToFirst, Nat.add_one_ne_zero, ↓reduceIte,
        Nat.add_one_sub_one, navigateHead]
      exact ih (hx x (by simp)) (fun e he => hpos e (by simp [he]))

theorem rect_common {base : GoTy} {leaf : GoVal → Prop} (hleaf : ∀ x, leaf x → Common x) {dims : List Nat}
    {v : GoVal} (hv : Rect base leaf dims v) : Common v := by
  cases dims with
  | nil => exact hleaf v hv
  | cons d ds => obtain ⟨xs, rfl, -⟩ := hv; exact trivial

theorem datatypeOf_rows {k : Kind} {dims : List Nat} {v : GoVal}
    (hv : Rect (.slice (.num k)) (Row k) dims v) (hpos : ∀ d ∈ dims, d ≠ 0) :
    datatypeOf v dims.length = .ok (.vlenSeq (.num k)) := by
  have hty : v.ty = tyNest (.slice (.num k)) dims := rect_ty (fun x ⟨_, e, _⟩ => by rw [e]; rfl) hv
  have hnav := navigate_rect (fun x ⟨_, e, _⟩ => by rw [e]; rfl) hv hpos
  obtain ⟨ys, hn, hy, -⟩ := hnav
  have hd : tyDepth v.ty + 1 = (tyDepth v.ty - 1 + 1) + 1 := by
    rw [hty, tyDepth_nest]
    simp only [tyDepth]
    omega
  have hel : ∃ bits, firstElem (navigateToFirst v dims.length) = .num k bits := by
    rw [hn]
    cases ys with
    | nil => exact ⟨0, rfl⟩
    | cons y ys =>
      obtain ⟨bits, e, -⟩ := hy y (by simp)
      exact ⟨bits, by rw [e]; rfl⟩
  obtain ⟨bits, hel⟩ := hel
  rw [datatypeOf, hd, dtOf, hty, stripTy_nest]
  simp only [hel, getDims, List.length_nil]
  · rfl
  · rintro u rfl
    exact (rect_common (fun x ⟨_, e, _⟩ => by rw [e]; exact trivial) hv).elim

theorem collectStrings_common {v : GoVal} (hc : Common v) (h : Heap) :
    collectStrings h v = if shouldUseVLen v then collectAllStrings h v else h := by
  cases v with
  | user u => exact hc.elim
  | _ => rfl

theorem AttrOK.common {v : GoVal} (h : AttrOK v) : Common v := by
  cases h with
  | num k dims v hv => exact rect_common (fun x ⟨_, e, _⟩ => by rw [e]; exact trivial) hv
  | str s => exact trivial
  | strs dims v hv => exact rect_common (fun x ⟨_, e, _⟩ => by rw [e]; exact trivial) hv
  | ragged k dims v hv => exact rect_common (fun x ⟨_, e, _⟩ => by rw [e]; exact trivial) hv

/-! ### Attributes -/

mutual
/-- No strings of a fixed length in the type. -/
def WTy.Heaped : WTy → Prop
  | .fixStr _ => False
  | .vlenSeq t => t.Heaped
  | .compound _ ts => Heapeds ts
  | _ => True
/-- No strings of a fixed length in the types. -/
def Heapeds : List WTy → Prop
  | [] => True
  | t :: ts => t.Heaped ∧ Heapeds ts
end

/-- Only a whole value is a string of a fixed length. -/
def WTy.Whole (t : WTy) : Prop := (∃ n, t = .fixStr n) ∨ t.Heaped

/-- What the writer makes of an attribute value, with the heap `hp` and the indices `is`, and that
the reader undoes it. -/
structure AttrEnc (heap : HeapFn) (hp : Option Heap) (is : List Nat) (v : GoVal) (t : WTy)
    (dims : List Nat) (data : Bytes) : Prop where
  shape : attrDims v = dims
  ty : datatypeOf v dims.length = .ok t
  write : ∃ rest, writeVal false hp (fixedLen v) v dims.length is = .ok (data, rest)
  readable : t.Readable true
  whole : t.Whole
  small : (t.bytes false).length < 65536
  fit : FitDims dims
  room : (t.bytes false).length + (data.length + 8 * dims.length) ≤ 64 + valueRoom v
  read : ∃ d, attrData data t.dt = .ok d ∧
    (Common v → ∀ fill name, attrRaw heap fill ⟨name, dims, t.dt, d⟩ = .ok v) ∧ (∀ s, v = .str s → d = .value s) ∧
    ∀ name, AttrShown heap ⟨name, dims, t.dt, d⟩ (GoVal.lift v)

theorem num_bytes_length (k : Kind) : ((WTy.num k).bytes false).length ≤ 64 := by
  cases k <;> decide

theorem valueRooms_ge (xs : List GoVal) (c : Nat) (h : ∀ x ∈ xs, c ≤ valueRoom x) :
    xs.length * c ≤ valueRooms xs := by
  induction xs with
  | nil => simp
  | cons x xs ih =>
    have h1 := h x (by simp)
    have h2 := ih (fun y hy => h y (by simp [hy]))
    simp only [List.length_cons, valueRooms, Nat.add_mul, Nat.one_mul]
    omega

/-- The room of an array. -/
theorem valueRoom_rect {base : GoTy} {leaf : GoVal → Prop} (c : Nat)
    (hleaf : ∀ x, leaf x → c ≤ valueRoom x) {dims : List Nat} {v : GoVal} (hv : Rect base leaf dims v)
    (hpos : ∀ d ∈ dims.dropLast, d ≠ 0) : prod dims * c + 8 * dims.length ≤ valueRoom v := by
  induction dims generalizing v with
  | nil => simpa [prod] using hleaf v hv
  | cons d ds ih =>
    obtain ⟨xs, rfl, hd, hx⟩ := hv
    rcases Nat.eq_zero_or_pos d with h0 | h0
    · cases ds with
      | nil => simp [prod, h0, valueRoom]; omega
      | cons d' ds => exact absurd h0 (hpos d (by simp))
    · have hpos' : ∀ e ∈ ds.dropLast, e ≠ 0 := by
        intro e he
        cases ds with
        | nil => simp at he
        | cons d' ds => exact hpos e (by simpa using .inr he)
      have := valueRooms_ge xs _ (fun x hm => ih (hx x hm) hpos')
      rw [hd, Nat.mul_add] at this
      have h8 : 8 * ds.length ≤ d * (8 * ds.length) := Nat.le_mul_of_pos_left _ h0
      have e : prod (d :: ds) * c = d * (prod ds * c) := by simp [prod, Nat.mul_assoc]
      rw [e]
      simp only [valueRoom, List.length_cons]
      omega

theorem attrRaw_exact (heap : HeapFn) (dt : DT) (dims : List Nat) (b : Bytes) (d : AttrData)
    (hl : b.length = prod dims * dt.len) (hlt : b.length < 2 ^ 64)
    (hd : d = .df b ∨ (d = .none ∧ b = [])) (v : GoVal) (s : S)
    (h : alloc heap dt dims ⟨0, b⟩ = .ok (v, s)) (fill name : Bytes) :
    attrRaw heap fill ⟨name, dims, dt, d⟩ = .ok v := by
  have e : dataSize dims * dt.len % 2 ^ 64 = b.length := by
    rw [dataSize_eq, ← hl, Nat.mod_eq_of_lt hlt]
  rcases hd with rfl | ⟨rfl, rfl⟩
  · simp only [attrRaw, e, Nat.sub_self, fillStream, List.range_zero, List.map_nil,
      List.append_nil, List.take_length, onBytes, h, Res.map]
  · simp only [attrRaw, e, List.length_nil, fillStream, List.range_zero, List.map_nil, onBytes, h,
      Res.map]

theorem attrShown_exact {heap : HeapFn} {dt : DT} {dims : List Nat} {b : Bytes} (hlt : b.length < 2 ^ 64) {v : TVal}
    (h : Shown heap dt dims b v) (d : AttrData) (hd : d = .df b ∨ (d = .none ∧ b = [])) (name : Bytes) :
    AttrShown heap ⟨name, dims, dt, d⟩ v := by
  rcases hd with rfl | ⟨rfl, rfl⟩
  · exact .data b [] (by simp) hlt h
  · exact .empty rfl h

theorem prod_pos {dims : List Nat} (h : ∀ d ∈ dims, d ≠ 0) : 0 < prod dims := by
  induction dims with
  | nil => decide
  | cons d ds ih =>
    exact Nat.mul_pos (Nat.pos_of_ne_zero (h d (by simp))) (ih (fun e he => h e (by simp [he])))

theorem prod_mul_cases (dims : List Nat) (n : Nat) : prod dims = 0 ∨ n ≤ prod dims * n := by
  rcases Nat.eq_zero_or_pos (prod dims) with h | h
  · exact .inl h
  · exact .inr (Nat.le_mul_of_pos_left n h)

theorem attrEnc_num (heap : HeapFn) (hp : Option Heap) (is : List Nat) {k : Kind} {dims : List Nat}
    {v : GoVal} (hv : NumArray k dims v) (hfit : FitDims dims)
    (hpos : ∀ d ∈ dims.dropLast, d ≠ 0) (hfl : k.isFloat = true → ∀ d ∈ dims, d ≠ 0)
    (hsz : prod dims * k.size < 2 ^ 63) :
    AttrEnc heap hp is v (.num k) dims ((leaves dims.length v).flatMap numLE) := by
  have hb : ((leaves dims.length v).flatMap numLE).length = prod dims * k.size := by
    rw [numLE_length (leaves_sat hv), leaves_length hv]
  have halloc := alloc_num heap k dims v hv 0 []
  rw [List.append_nil] at halloc
  have hns : ∀ s, v ≠ .str s := by
    rintro s rfl
    cases dims with
    | nil => obtain ⟨_, h, -⟩ := hv; exact GoVal.noConfusion h
    | cons d ds => obtain ⟨_, h, -⟩ := hv; exact GoVal.noConfusion h
  refine ⟨?_, datatypeOf_num hv, ⟨is, ?_⟩, trivial, .inr trivial, Nat.lt_of_le_of_lt (num_bytes_length k) (by decide), hfit, ?_, ?_⟩
  · refine attrDims_rect (fun t => by simp) ?_ hv hpos
    rintro x ⟨bits, rfl, -⟩
    rfl
  · rw [writeVal_leaves _ _ _ hv, writeVals_num _ _ k _ (leaves_sat hv)]
  · rw [hb]
    exact Nat.add_le_add (num_bytes_length k)
      (valueRoom_rect _ (fun x ⟨_, e, _⟩ => by rw [e]; exact Nat.le_refl _) hv hpos)
  · have hex : ∀ d, (d = .df ((leaves dims.length v).flatMap numLE) ∨
        (d = .none ∧ (leaves dims.length v).flatMap numLE = [])) → ∀ fill name,
        attrRaw heap fill ⟨name, dims, (WTy.num k).dt, d⟩ = .ok v :=
      fun d hd fill name => attrRaw_exact heap _ dims _ d (by rw [hb, dt_len_num]) (by omega) hd v _
        halloc fill name
    have hsh := attrShown_exact (heap := heap) (b := (leaves dims.length v).flatMap numLE) (by omega) (shown_nums heap hv)
    have hkd : k.isFloat = true ∨ k.isFloat = false := by cases k.isFloat <;> simp
    rcases hkd with hk | hk
    · have hle : k.size ≤ ((leaves dims.length v).flatMap numLE).length := by
        rw [hb]
        exact Nat.le_mul_of_pos_left _ (prod_pos (hfl hk))
      refine ⟨.df ((leaves dims.length v).flatMap numLE), ?_, fun _ => hex _ (.inl rfl), fun s h => absurd h (hns s), hsh _ (.inl rfl)⟩
      simp only [WTy.dt, hk, ↓reduceIte, attrData, hle]
    · rcases prod_mul_cases dims k.size with h0 | hle
      · have hnil : (leaves dims.length v).flatMap numLE = [] := by
          apply List.length_eq_zero_iff.1
          rw [hb, h0, Nat.zero_mul]
        have hkp : ¬ k.size ≤ 0 := by cases k <;> decide
        refine ⟨.none, ?_, fun _ => hex _ (.inr ⟨rfl, hnil⟩), fun s h => absurd h (hns s), hsh _ (.inr ⟨rfl, hnil⟩)⟩
        simp only [WTy.dt, hk, Bool.false_eq_true, ↓reduceIte, attrData, hnil, List.length_nil, hkp]
      · rw [← hb] at hle
        refine ⟨.df ((leaves dims.length v).flatMap numLE), ?_, fun _ => hex _ (.inl rfl), fun s h => absurd h (hns s), hsh _ (.inl rfl)⟩
        simp only [WTy.dt, hk, Bool.false_eq_true, ↓reduceIte, attrData, hle]

theorem attrEnc_str (heap : HeapFn) (hp : Option Heap) (is : List Nat) (s : Bytes)
    (h0 : (0 : UInt8) ∉ s) (hl : s.length + 1 < 2 ^ 32) :
    AttrEnc heap hp is (.str s) (.fixStr (s.length + 1)) [] (s ++ [0]) := by
  refine ⟨rfl, rfl, ⟨is, ?_⟩, ⟨by omega, hl⟩, .inl ⟨_, rfl⟩, by simp [WTy.bytes, buildString], ⟨by simp, by simp⟩, ?_, ?_⟩
  · have e : fixedLen (.str s) = s.length + 1 := rfl
    simp only [List.length_nil, writeVal, e, Nat.zero_lt_succ, ↓reduceIte,
      show s.length + 1 - s.length = 1 by omega, List.replicate_one]
  · simp only [List.length_append, List.length_cons, List.length_nil, valueRoom, WTy.bytes, buildString,
      leEnc_length]
    omega
  · refine ⟨.value s, ?_, fun _ fill name => rfl, fun s' h => by injection h with h; rw [h], fun name => .text s rfl (lift_str s)⟩
    simp only [WTy.dt, attrData, getString_nul s [] h0]

theorem vlen_attrData {t : WTy} {c : Bool} {e : DT} (ht : t.dt = .vlen 16 c e) (dims : List Nat)
    (b : Bytes) (hb : b.length = prod dims * 16) :
    ∃ d, attrData b t.dt = .ok d ∧ (d = .df b ∨ (d = .none ∧ b = [])) := by
  rw [ht]
  rcases prod_mul_cases dims 16 with h0 | hle
  · have hnil : b = [] := by
      apply List.length_eq_zero_iff.1
      rw [hb, h0, Nat.zero_mul]
    subst hnil
    exact ⟨.none, rfl, .inr ⟨rfl, rfl⟩⟩
  · rw [← hb] at hle
    exact ⟨.df b, by simp [attrData, hle], .inl rfl⟩

theorem attrEnc_strs (heap : HeapFn) (H : Heap) (hh : HeapHas heap H) (is : List Nat)
    {dims : List Nat} {v : GoVal} (hv : Rect .str CStr dims v) (hfit : FitDims dims)
    (hne : dims ≠ []) (hpos : ∀ d ∈ dims.dropLast, d ≠ 0) (hsz : prod dims * 16 < 2 ^ 63)
    (hs : ∀ s, .str s ∈ leaves dims.length v → H.HasStr s) :
    AttrEnc heap (some H) is v .vlenStr dims ((leaves dims.length v).flatMap (strDesc H)) := by
  have hb : ((leaves dims.length v).flatMap (strDesc H)).length = prod dims * 16 := by
    rw [strDesc_length (leaves_sat hv), leaves_length hv]
  have halloc := alloc_strs heap H hh dims v hv hs 0 []
  rw [List.append_nil] at halloc
  have hns : ∀ s, v ≠ .str s := by
    rintro s rfl
    cases dims with
    | nil => exact hne rfl
    | cons d ds => obtain ⟨_, h, -⟩ := hv; exact GoVal.noConfusion h
  refine ⟨?_, datatypeOf_strs hv hne, ⟨is, ?_⟩, trivial, .inr trivial, by decide, hfit, ?_, ?_⟩
  · refine attrDims_rect (fun t => by simp) ?_ hv hpos
    rintro x ⟨s, rfl, -⟩
    rfl
  · have e : fixedLen v = 0 := by simp [fixedLen, shouldUseVLen_strs hv hne]
    rw [writeVal_leaves _ _ _ hv, e, writeVals_str H _ (leaves_sat hv)]
  · rw [hb]
    exact Nat.add_le_add (by decide : _ ≤ 64)
      (valueRoom_rect _ (fun x ⟨_, e, _⟩ => by rw [e]; simp only [valueRoom]; omega) hv hpos)
  · obtain ⟨d, hd1, hd2⟩ := vlen_attrData (t := .vlenStr) rfl dims _ hb
    exact ⟨d, hd1, fun _ => attrRaw_exact heap _ dims _ d hb (by omega) hd2 v _ halloc, fun s h => absurd h (hns s),
      attrShown_exact (by omega) (shown_strs heap H hh hv hs) d hd2⟩

theorem attrEnc_rows (heap : HeapFn) (H : Heap) (hh : HeapHas heap H) {k : Kind}
    {dims : List Nat} {v : GoVal} (hv : Rect (.slice (.num k)) (Row k) dims v) (hfit : FitDims dims)
    (hpos : ∀ d ∈ dims, d ≠ 0) (hu : Uneven dims.length v) (hsz : prod dims * 16 < 2 ^ 63)
    (is : List Nat) (hl : is.length = (leaves dims.length v).length)
    (ho : ∀ p ∈ (leaves dims.length v).zip is, H.objAt p.2 (rowBytes p.1)) :
    AttrEnc heap (some H) is v (.vlenSeq (.num k)) dims (rowDescs H (leaves dims.length v) is) := by
  have hb : (rowDescs H (leaves dims.length v) is).length = prod dims * 16 := by
    rw [rowDescs_length _ _ _ hl, leaves_length hv]
  have halloc := alloc_rows heap H hh k dims v hv hpos is hl ho 0 []
  rw [List.append_nil] at halloc
  have hns : ∀ s, v ≠ .str s := by
    rintro s rfl
    cases dims with
    | nil => obtain ⟨_, h, -⟩ := hv; exact GoVal.noConfusion h
    | cons d ds => obtain ⟨_, h, -⟩ := hv; exact GoVal.noConfusion h
  refine ⟨attrDims_ragged hv hpos hu, datatypeOf_rows hv hpos, ⟨[], ?_⟩, trivial, .inr trivial,
    by cases k <;> decide, hfit, ?_, ?_⟩
  · have := writeVals_rows H k (leaves dims.length v) is [] (leaves_sat hv) hl false (fixedLen v)
    rw [List.append_nil] at this
    rw [writeVal_leaves _ _ _ hv, this]
  · rw [hb]
    exact Nat.add_le_add (by cases k <;> decide : _ ≤ 64)
      (valueRoom_rect _ (fun x ⟨_, e, _⟩ => by rw [e]; simp only [valueRoom]; omega) hv
        (fun d hd => hpos d (List.dropLast_subset _ hd)))
  · obtain ⟨d, hd1, hd2⟩ := vlen_attrData (t := .vlenSeq (.num k)) rfl dims _ hb
    exact ⟨d, hd1, fun _ => attrRaw_exact heap _ dims _ d hb (by omega) hd2 v _ halloc, fun s h => absurd h (hns s),
      attrShown_exact (by omega) (shown_seqs heap H hh hv hpos is hl ho) d hd2⟩

theorem collectStrings_num {k : Kind} {dims : List Nat} {v : GoVal} (hv : NumArray k dims v)
    (h : Heap) : collectStrings h v = h := by
  have : shouldUseVLen v = false := by
    cases dims with
    | nil => obtain ⟨bits, rfl, -⟩ := hv; rfl
    | cons d ds =>
      obtain ⟨xs, rfl, -, -⟩ := hv
      simp [shouldUseVLen, baseTy_nest, baseTy]
  rw [collectStrings_common (rect_common (fun x ⟨_, e, _⟩ => by rw [e]; exact trivial) hv), this]
  rfl

theorem collectStrings_rows {k : Kind} {dims : List Nat} {v : GoVal}
    (hv : Rect (.slice (.num k)) (Row k) dims v) (h : Heap) : collectStrings h v = h := by
  have : shouldUseVLen v = false := by
    cases dims with
    | nil => obtain ⟨ys, rfl, -⟩ := hv; rfl
    | cons d ds =>
      obtain ⟨xs, rfl, -, -⟩ := hv
      simp [shouldUseVLen, baseTy_nest, baseTy]
  rw [collectStrings_common (rect_common (fun x ⟨_, e, _⟩ => by rw [e]; exact trivial) hv), this]
  rfl

/-- The message of an attribute value. -/
theorem AttrEnc.message {heap : HeapFn} {hp : Option Heap} {is : List Nat} {v : GoVal} {t : WTy}
    {dims : List Nat} {data : Bytes} (h : AttrEnc heap hp is v t dims data) (name : Bytes) :
    attrMessage false hp is name v =
      .ok (buildAttr name (t.bytes false) (buildDataspace dims) data) := by
  obtain ⟨rest, hw⟩ := h.write
  simp only [attrMessage, h.shape, h.ty, hw]

/-- The attribute value is read back from its message. -/
theorem AttrEnc.round {heap : HeapFn} {hp : Option Heap} {is : List Nat} {v : GoVal} {t : WTy}
    {dims : List Nat} {data : Bytes} (h : AttrEnc heap hp is v t dims data) (name : Bytes)
    (hc : Common v) (hn : (0 : UInt8) ∉ name) (hnl : name.length < 65535) :
    ∃ d, readAttribute ⟨0, buildAttr name (t.bytes false) (buildDataspace dims) data⟩ =
        .ok (⟨name, dims, t.dt, d⟩,
          ⟨(buildAttr name (t.bytes false) (buildDataspace dims) data).length, []⟩) ∧
      (∀ fill, attrRaw heap fill ⟨name, dims, t.dt, d⟩ = .ok v) ∧ (∀ s, v = .str s → d = .value s) := by
  obtain ⟨d, hd1, hd2, hd3, -⟩ := h.read
  refine ⟨d, ?_, fun fill => hd2 hc fill name, hd3⟩
  rw [readAttribute_ok name data t dims hn hnl h.readable h.small h.fit.1 h.fit.2, hd1]

/-- Strings of a value are in the heap after `collectStrings`. -/
theorem collectStrings_ok (h : Heap) (v : GoVal) (hw : h.StrWF) (hv : AttrOK v) :
    (collectStrings h v).StrWF ∧ h.Le (collectStrings h v) := by
  cases hv with
  | num k dims v hv => rw [collectStrings_num hv]; exact ⟨hw, Heap.Le.refl h⟩
  | str s => exact ⟨hw, Heap.Le.refl h⟩
  | strs dims v hv hf hne =>
    rw [collectStrings_common (rect_common (fun x ⟨_, e, _⟩ => by rw [e]; exact trivial) hv),
      if_pos (shouldUseVLen_strs hv hne), collectAllStrings_leaves hv]
    have := collectAllStringsL_ok (leaves dims.length v) h (leaves_sat hv) hw
    exact ⟨this.1, this.2.1⟩
  | ragged k dims v hv => rw [collectStrings_rows hv]; exact ⟨hw, Heap.Le.refl h⟩

/-- Collecting and encoding an attribute value. `h0` is the heap when its strings are collected, `h1`
when its sequences are. -/
theorem attr_collect (v : GoVal) (hv : AttrOK v) (h0 h1 : Heap) (hw : h0.StrWF)
    (hle : (collectStrings h0 v).Le h1) :
    ∃ h2 is, collectAttrVlen false h1 v = .ok (h2, is) ∧ h1.Le h2 ∧ h2.indices = h1.indices ∧
      ∀ H heap, h2.Le H → HeapHas heap H → ∃ t dims data, AttrEnc heap (some H) is v t dims data := by
  cases hv with
  | num k dims v hv hfit hpos hfl hsz =>
    refine ⟨h1, [], ?_, Heap.Le.refl _, rfl, fun H heap hH hh =>
      ⟨_, _, _, attrEnc_num heap (some H) [] hv hfit hpos hfl hsz⟩⟩
    refine collectAttrVlen_rect (fun t => by simp) ?_ hv h1
    rintro x ⟨bits, rfl, -⟩ h
    rfl
  | str s hs hl =>
    exact ⟨h1, [], rfl, Heap.Le.refl _, rfl, fun H heap hH hh =>
      ⟨_, _, _, attrEnc_str heap (some H) [] s hs hl⟩⟩
  | strs dims v hv hfit hne hpos hsz =>
    rw [collectStrings_common (rect_common (fun x ⟨_, e, _⟩ => by rw [e]; exact trivial) hv),
      if_pos (shouldUseVLen_strs hv hne), collectAllStrings_leaves hv] at hle
    obtain ⟨-, -, hin⟩ := collectAllStringsL_ok (leaves dims.length v) h0 (leaves_sat hv) hw
    refine ⟨h1, [], ?_, Heap.Le.refl _, rfl, fun H heap hH hh =>
      ⟨_, _, _, attrEnc_strs heap H hh [] hv hfit hne hpos hsz
        (fun s hs => (hin s hs).le (hle.trans hH))⟩⟩
    refine collectAttrVlen_rect (fun t => by simp) ?_ hv h1
    rintro x ⟨s, rfl, -⟩ h
    rfl
  | ragged k dims v hv hfit hpos hu hsz =>
    obtain ⟨h2, is, e1, e2, e3, -, e5, e6⟩ := serializeVlens_ok k (leaves dims.length v) h1 (leaves_sat hv)
    refine ⟨h2, is, by rw [collectAttrVlen_ragged hv hu, e1], e2, e3, fun H heap hH hh =>
      ⟨_, _, _, attrEnc_rows heap H hh hv hfit hpos hu hsz is e5
        (fun p hp => Heap.objAt_le hH (e6 p hp))⟩⟩

end Verif.H5
