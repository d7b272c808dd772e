import Verif.Lemmas.H5Close
import Verif.Lemmas.H5UserFile
import Verif.Spec.H5File
/-!
Collecting what goes to the heap, in any order.
-/
namespace Verif.H5

/-! ### Strings -/

/-- All values of a variable or a group. -/
def Visit.vals : Visit → List GoVal
  | .var _ v => v.val :: (v.attrs.getD []).map (·.2)
  | .grp _ as => (as.getD []).map (·.2)

theorem collectAttrStrings_eq (h : Heap) (as : HAttrs) :
    collectAttrStrings h as = ((as.getD []).map (·.2)).foldl collectStrings h := by
  rw [collectAttrStrings, List.foldl_map]

theorem passStrings_eq (vs : List Visit) (h : Heap) :
    passStrings vs h = (vs.flatMap Visit.vals).foldl collectStrings h := by
  induction vs generalizing h with
  | nil => rfl
  | cons x vs ih =>
    cases x with
    | var p v =>
      simp only [passStrings, ih, collectAttrStrings_eq, List.flatMap_cons, Visit.vals,
        List.foldl_append, List.foldl_cons]
    | grp p as =>
      simp only [passStrings, ih, collectAttrStrings_eq, List.flatMap_cons, Visit.vals,
        List.foldl_append]

mutual
theorem collectAllStrings_step (v : GoVal) (h : Heap) (hw : h.StrWF) :
    StrStep h (collectAllStrings h v) (strsIn v) := by
  match v with
  | .num _ _ => exact StrStep.refl hw _
  | .other _ => exact StrStep.refl hw _
  | .user _ => exact StrStep.refl hw _
  | .str s => exact StrStep.addString h s hw
  | .slice _ xs => exact collectAllStringsL_step xs h hw
theorem collectAllStringsL_step (xs : List GoVal) (h : Heap) (hw : h.StrWF) :
    StrStep h (collectAllStringsL h xs) (strsInL xs) := by
  match xs with
  | [] => exact StrStep.refl hw _
  | x :: xs =>
    have h1 := collectAllStrings_step x h hw
    exact h1.trans (collectAllStringsL_step xs _ h1.wf)
end

theorem collectStrings_step (v : GoVal) (h : Heap) (hw : h.StrWF) :
    StrStep h (collectStrings h v) (heapStrs v) := by
  unfold collectStrings
  cases v with
  | slice e xs =>
    split
    · exact collectAllStringsL_step xs h hw
    · exact StrStep.refl hw _
  | user u => exact collectStringsT_step u h hw
  | _ => exact StrStep.refl hw _

theorem collectFold_step (ws : List GoVal) (h : Heap) (hw : h.StrWF) :
    StrStep h (ws.foldl collectStrings h) (ws.flatMap heapStrs) ∧
      ∀ w ∈ ws, ∃ h0 : Heap, h0.StrWF ∧ (collectStrings h0 w).Le (ws.foldl collectStrings h) := by
  induction ws generalizing h with
  | nil => exact ⟨StrStep.refl hw _, by simp⟩
  | cons w ws ih =>
    have h1 := collectStrings_step w h hw
    obtain ⟨h2, h3⟩ := ih _ h1.wf
    refine ⟨h1.trans h2, ?_⟩
    intro x hx
    rw [List.mem_cons] at hx
    rcases hx with rfl | hx
    · exact ⟨h, hw, h2.le⟩
    · exact h3 x hx

/-! ### Elements of variable length -/

theorem serializeVlens_len (xs : List GoVal) (h h2 : Heap) (is : List Nat)
    (e : serializeVlens false h xs = .ok (h2, is)) :
    h2.objects.length ≤ h.objects.length + xs.length ∧ xs.length ≤ slicesInL xs := by
  induction xs generalizing h is with
  | nil =>
    simp only [serializeVlens, Res.ok.injEq, Prod.mk.injEq] at e
    obtain ⟨rfl, -⟩ := e
    simp
  | cons x xs ih =>
    simp only [serializeVlens] at e
    cases x with
    | slice t ys =>
      simp only [serializeVlen] at e
      cases hv : vlenElems false ys with
      | ok b =>
        simp only [hv] at e
        cases hs : serializeVlens false (h.addObject b).1 xs with
        | ok r =>
          obtain ⟨h3, is3⟩ := r
          simp only [hs, Res.ok.injEq, Prod.mk.injEq] at e
          obtain ⟨rfl, -⟩ := e
          have := ih _ _ hs
          simp only [Heap.addObject, List.length_append, List.length_cons, List.length_nil] at this
          simp only [List.length_cons, slicesInL, slicesIn]
          omega
        | err _ => simp [hs] at e
        | panic => simp [hs] at e
      | err _ => simp [hv] at e
      | panic => simp [hv] at e
    | num _ _ => simp [serializeVlen] at e
    | str _ => simp [serializeVlen] at e
    | other _ => simp [serializeVlen] at e
    | user _ => simp [serializeVlen] at e

mutual
theorem collectAttrVlen_len (v : GoVal) (h h2 : Heap) (is : List Nat)
    (e : collectAttrVlen false h v = .ok (h2, is)) :
    h2.objects.length ≤ h.objects.length + slicesIn v := by
  match v with
  | .num _ _ => simp only [collectAttrVlen, Res.ok.injEq, Prod.mk.injEq] at e; obtain ⟨rfl, -⟩ := e; omega
  | .str _ => simp only [collectAttrVlen, Res.ok.injEq, Prod.mk.injEq] at e; obtain ⟨rfl, -⟩ := e; omega
  | .user u => exact collectAttrVlenT_len u h h2 is e
  | .other _ => simp only [collectAttrVlen, Res.ok.injEq, Prod.mk.injEq] at e; obtain ⟨rfl, -⟩ := e; omega
  | .slice t xs =>
    simp only [collectAttrVlen] at e
    split at e
    · have := serializeVlens_len xs h h2 is e
      simp only [slicesIn]
      omega
    · have := collectAttrVlenL_len xs h h2 is e
      simp only [slicesIn]
      omega
theorem collectAttrVlenL_len (xs : List GoVal) (h h2 : Heap) (is : List Nat)
    (e : collectAttrVlenL false h xs = .ok (h2, is)) :
    h2.objects.length ≤ h.objects.length + slicesInL xs := by
  match xs with
  | [] =>
    simp only [collectAttrVlenL, Res.ok.injEq, Prod.mk.injEq] at e
    obtain ⟨rfl, -⟩ := e
    omega
  | x :: xs =>
    simp only [collectAttrVlenL] at e
    cases hx : collectAttrVlen false h x with
    | ok r =>
      obtain ⟨h3, is3⟩ := r
      have h1 := collectAttrVlen_len x h h3 is3 hx
      simp only [hx] at e
      cases hs : collectAttrVlenL false h3 xs with
      | ok r =>
        obtain ⟨h4, is4⟩ := r
        have h2' := collectAttrVlenL_len xs h3 h4 is4 hs
        simp only [hs, Res.ok.injEq, Prod.mk.injEq] at e
        obtain ⟨rfl, -⟩ := e
        simp only [slicesInL]
        omega
      | err _ => simp [hs] at e
      | panic => simp [hs] at e
    | err _ => simp [hx] at e
    | panic => simp [hx] at e
end

mutual
theorem collectVarVlen_len (v : GoVal) (n : Nat) (h h2 : Heap) (is : List Nat)
    (e : collectVarVlen false h v n = .ok (h2, is)) :
    h2.objects.length ≤ h.objects.length + seqsIn v n := by
  match v with
  | .num _ _ => simp only [collectVarVlen, Res.ok.injEq, Prod.mk.injEq] at e; obtain ⟨rfl, -⟩ := e; omega
  | .str _ => simp only [collectVarVlen, Res.ok.injEq, Prod.mk.injEq] at e; obtain ⟨rfl, -⟩ := e; omega
  | .user u => exact collectVarVlenT_len u n h h2 is e
  | .other _ => simp only [collectVarVlen, Res.ok.injEq, Prod.mk.injEq] at e; obtain ⟨rfl, -⟩ := e; omega
  | .slice t xs =>
    simp only [collectVarVlen] at e
    simp only [seqsIn]
    split at e
    · rename_i hn
      rw [if_pos hn]
      simp only [serializeVlen] at e
      cases hv : vlenElems false xs with
      | ok b =>
        simp only [hv, Res.ok.injEq, Prod.mk.injEq] at e
        obtain ⟨rfl, -⟩ := e
        simp [Heap.addObject]
      | err _ => simp [hv] at e
      | panic => simp [hv] at e
    · rename_i hn
      rw [if_neg hn]
      exact collectVarVlenL_len xs (n - 1) h h2 is e
theorem collectVarVlenL_len (xs : List GoVal) (n : Nat) (h h2 : Heap) (is : List Nat)
    (e : collectVarVlenL false h xs n = .ok (h2, is)) :
    h2.objects.length ≤ h.objects.length + seqsInL xs n := by
  match xs with
  | [] =>
    simp only [collectVarVlenL, Res.ok.injEq, Prod.mk.injEq] at e
    obtain ⟨rfl, -⟩ := e
    omega
  | x :: xs =>
    simp only [collectVarVlenL] at e
    cases hx : collectVarVlen false h x n with
    | ok r =>
      obtain ⟨h3, is3⟩ := r
      have h1 := collectVarVlen_len x n h h3 is3 hx
      simp only [hx] at e
      cases hs : collectVarVlenL false h3 xs n with
      | ok r =>
        obtain ⟨h4, is4⟩ := r
        have h2' := collectVarVlenL_len xs n h3 h4 is4 hs
        simp only [hs, Res.ok.injEq, Prod.mk.injEq] at e
        obtain ⟨rfl, -⟩ := e
        simp only [seqsInL]
        omega
      | err _ => simp [hs] at e
      | panic => simp [hs] at e
    | err _ => simp [hx] at e
    | panic => simp [hx] at e
end

theorem collectVar_len (v : GoVal) (n : Nat) (h h2 : Heap) (is : List Nat)
    (e : collectVar false h v n = .ok (h2, is)) :
    h2.objects.length ≤ h.objects.length + seqsIn v n := by
  unfold collectVar at e
  split at e
  · exact collectVarVlen_len v n h h2 is e
  · simp only [Res.ok.injEq, Prod.mk.injEq] at e
    obtain ⟨rfl, -⟩ := e
    omega

/-- Where the indices of a variable are kept. -/
def Visit.varKey : Visit → Option (List Bytes × Bytes)
  | .var p v => some (p, v.name)
  | .grp .. => none

/-- The entries of the heap for the value of a variable. -/
def Visit.seqNeed : Visit → Nat
  | .var _ v => seqsIn v.val v.dims.length
  | .grp .. => 0

theorem passVlens_ok : ∀ (vs : List Visit) (h : Heap) (t : VarTable),
    (∀ p v, Visit.var p v ∈ vs → VarAny v.dims.length v.val ∧
      ∃ h0 : Heap, h0.StrWF ∧ (collectStrings h0 v.val).Le h) →
    (vs.filterMap Visit.varKey).Nodup →
    ∃ h2 t2, passVlens false vs (h, t) = .ok (h2, t2) ∧ h.Le h2 ∧ h2.indices = h.indices ∧
      h2.objects.length ≤ h.objects.length + (vs.map Visit.seqNeed).sum ∧
      (∀ key, key ∉ vs.filterMap Visit.varKey → t2.lookup key = t.lookup key) ∧
      ∀ p v, Visit.var p v ∈ vs → ∀ H heap, h2.Le H → HeapHas heap H →
        ∃ ty dims data, VarEnc heap (some H) ((t2.lookup (p, v.name)).getD []) v.val v.dims.length
          ty dims data := by
  intro vs
  induction vs with
  | nil =>
    intro h t _ _
    exact ⟨h, t, rfl, Heap.Le.refl h, rfl, by simp, fun _ _ => rfl, by simp⟩
  | cons x vs ih =>
    intro h t hv hn
    cases x with
    | grp p as =>
      obtain ⟨h2, t2, e1, e2, e3, e4, e5, e6⟩ := ih h t (fun p v hm => hv p v (by simp [hm]))
        hn
      refine ⟨h2, t2, by simp only [passVlens, e1], e2, e3, ?_, ?_, ?_⟩
      · simpa [Visit.seqNeed] using e4
      · exact e5
      · intro p v hm
        exact e6 p v (by simpa using hm)
    | var q w =>
      have hkey : (Visit.var q w :: vs).filterMap Visit.varKey =
          (q, w.name) :: vs.filterMap Visit.varKey := by simp [Visit.varKey]
      rw [hkey, List.nodup_cons] at hn
      obtain ⟨hw1, h0, hw2, hw3⟩ := hv q w (by simp)
      obtain ⟨h1, is, c1, c2, c3, c4⟩ := varAny_collect w.val w.dims.length hw1 h0 h hw2 hw3
      have clen := collectVar_len _ _ _ _ _ c1
      obtain ⟨h2, t2, e1, e2, e3, e4, e5, e6⟩ := ih h1 (((q, w.name), is) :: t)
        (fun p v hm => by
          obtain ⟨g1, g0, g2, g3⟩ := hv p v (by simp [hm])
          exact ⟨g1, g0, g2, g3.trans c2⟩) hn.2
      refine ⟨h2, t2, by simp only [passVlens, c1, e1], c2.trans e2, by rw [e3, c3], ?_, ?_, ?_⟩
      · simp only [List.map_cons, List.sum_cons, Visit.seqNeed] at e4 ⊢
        omega
      · intro key hk
        rw [hkey, List.mem_cons, not_or] at hk
        rw [e5 key hk.2, List.lookup_cons]
        have : (key == (q, w.name)) = false := by simpa using hk.1
        simp [this]
      · intro p v hm
        rw [List.mem_cons] at hm
        rcases hm with hm | hm
        · cases hm
          rw [e5 _ hn.1, List.lookup_cons]
          simp only [beq_self_eq_true, Option.getD_some]
          intro H heap hH hh
          exact c4 H heap (e2.trans hH) hh
        · exact e6 p v hm

/-! ### Attributes -/

/-- The attributes of a variable or a group with the keys of the table. -/
def Visit.items : Visit → List ((List Bytes × Option Bytes × Bytes) × GoVal)
  | .var p v => (v.attrs.getD []).map fun a => ((p, some v.name, a.1), a.2)
  | .grp p as => (as.getD []).map fun a => ((p, none, a.1), a.2)

/-- The pass over attributes as one loop. -/
def attrFold : List ((List Bytes × Option Bytes × Bytes) × GoVal) → Heap × AttrTable →
    Res (Heap × AttrTable)
  | [], x => .ok x
  | (k, v) :: ps, (h, t) =>
    match collectAttrVlen false h v with
    | .err e => .err e
    | .panic => .panic
    | .ok (h, is) => attrFold ps (h, if is = [] then t else (k, is) :: t)

theorem attrFold_append (xs ys : List ((List Bytes × Option Bytes × Bytes) × GoVal))
    (x : Heap × AttrTable) :
    attrFold (xs ++ ys) x = (match attrFold xs x with
      | .err e => .err e
      | .panic => .panic
      | .ok x => attrFold ys x) := by
  induction xs generalizing x with
  | nil => rfl
  | cons p xs ih =>
    obtain ⟨k, v⟩ := p
    obtain ⟨h, t⟩ := x
    simp only [List.cons_append, attrFold]
    cases collectAttrVlen false h v with
    | ok r => simp only [ih]
    | err e => rfl
    | panic => rfl

theorem attrVlens_eq (path : List Bytes) (var : Option Bytes) (ps : List (Bytes × GoVal))
    (x : Heap × AttrTable) :
    attrVlens false path var ps x = attrFold (ps.map fun a => ((path, var, a.1), a.2)) x := by
  induction ps generalizing x with
  | nil => rfl
  | cons p ps ih =>
    obtain ⟨k, v⟩ := p
    obtain ⟨h, t⟩ := x
    simp only [List.map_cons, attrVlens, attrFold]
    cases collectAttrVlen false h v with
    | ok r => simp only [ih]
    | err e => rfl
    | panic => rfl

theorem passAttrVlens_eq (vs : List Visit) (x : Heap × AttrTable) :
    passAttrVlens false vs x = attrFold (vs.flatMap Visit.items) x := by
  induction vs generalizing x with
  | nil => rfl
  | cons y vs ih =>
    cases y with
    | var p v =>
      simp only [passAttrVlens, attrVlens_eq, List.flatMap_cons, Visit.items, attrFold_append]
      cases attrFold ((v.attrs.getD []).map fun a => ((p, some v.name, a.1), a.2)) x with
      | ok r => simp only [ih]
      | err e => rfl
      | panic => rfl
    | grp p as =>
      simp only [passAttrVlens, attrVlens_eq, List.flatMap_cons, Visit.items, attrFold_append]
      cases attrFold ((as.getD []).map fun a => ((p, none, a.1), a.2)) x with
      | ok r => simp only [ih]
      | err e => rfl
      | panic => rfl

theorem attrFold_ok : ∀ (ps : List ((List Bytes × Option Bytes × Bytes) × GoVal)) (h : Heap)
    (t : AttrTable),
    (∀ p ∈ ps, AttrAny p.2 ∧ ∃ h0 : Heap, h0.StrWF ∧ (collectStrings h0 p.2).Le h) →
    (ps.map (·.1)).Nodup → (∀ p ∈ ps, t.lookup p.1 = none) →
    ∃ h2 t2, attrFold ps (h, t) = .ok (h2, t2) ∧ h.Le h2 ∧ h2.indices = h.indices ∧
      h2.objects.length ≤ h.objects.length + (ps.map fun p => slicesIn p.2).sum ∧
      (∀ key, key ∉ ps.map (·.1) → t2.lookup key = t.lookup key) ∧
      ∀ p ∈ ps, ∀ H heap, h2.Le H → HeapHas heap H →
        ∃ ty dims data, AttrEnc heap (some H) ((t2.lookup p.1).getD []) p.2 ty dims data := by
  intro ps
  induction ps with
  | nil =>
    intro h t _ _ _
    exact ⟨h, t, rfl, Heap.Le.refl h, rfl, by simp, fun _ _ => rfl, by simp⟩
  | cons x ps ih =>
    intro h t hv hn ht
    obtain ⟨k, w⟩ := x
    rw [List.map_cons, List.nodup_cons] at hn
    obtain ⟨hw1, h0, hw2, hw3⟩ := hv (k, w) (by simp)
    obtain ⟨h1, is, c1, c2, c3, c4⟩ := attrAny_collect w hw1 h0 h hw2 hw3
    have clen := collectAttrVlen_len _ _ _ _ c1
    have hother : ∀ key, key ≠ k →
        (if is = [] then t else (k, is) :: t).lookup key = t.lookup key := by
      intro key hk
      split
      · rfl
      · rw [List.lookup_cons]
        have : (key == k) = false := by simpa using hk
        simp [this]
    have hself : ((if is = [] then t else (k, is) :: t).lookup k).getD [] = is := by
      split
      · rename_i hi
        rw [ht (k, w) (by simp), hi]
        rfl
      · rw [List.lookup_cons]
        simp
    obtain ⟨h2, t2, e1, e2, e3, e4, e5, e6⟩ := ih h1 (if is = [] then t else (k, is) :: t)
      (fun p hm => by
        obtain ⟨g1, g0, g2, g3⟩ := hv p (by simp [hm])
        exact ⟨g1, g0, g2, g3.trans c2⟩) hn.2
      (fun p hm => by
        rw [hother p.1 (fun e => hn.1 (List.mem_map.2 ⟨p, hm, e⟩))]
        exact ht p (by simp [hm]))
    refine ⟨h2, t2, by simp only [attrFold, c1, e1], c2.trans e2, by rw [e3, c3], ?_, ?_, ?_⟩
    · simp only [List.map_cons, List.sum_cons]
      omega
    · intro key hk
      rw [List.map_cons, List.mem_cons, not_or] at hk
      rw [e5 key hk.2, hother key hk.1]
    · intro p hm
      rw [List.mem_cons] at hm
      rcases hm with rfl | hm
      · rw [e5 _ hn.1, hself]
        intro H heap hH hh
        exact c4 H heap (e2.trans hH) hh
      · exact e6 p hm

/-! ### References -/

/-- The references in the heap are right. -/
def RefWF (da : GoMap Nat) (h : Heap) : Prop :=
  ∀ d a i, da.get d = some a → h.indices.get (dimRefKey d) = some i → h.objAt i (leEnc 8 a)

theorem addDimRef_ok (da : GoMap Nat) (h : Heap) (d : Bytes) (a : Nat) (hd : da.get d = some a)
    (hw : RefWF da h) :
    RefWF da (h.addDimRef d a) ∧ h.Le (h.addDimRef d a) ∧
      (h.addDimRef d a).objects.length ≤ h.objects.length + 1 ∧ RefReady (h.addDimRef d a) da d := by
  unfold Heap.addDimRef
  cases hi : h.indices.get (dimRefKey d) with
  | some i => exact ⟨hw, Heap.Le.refl h, by simp, a, i, hd, hi, hw d a i hd hi⟩
  | none =>
    simp only
    have hle : h.Le { h with objects := h.objects ++ [leEnc 8 a],
                             indices := h.indices.set (dimRefKey d) (h.objects.length + 1) } := by
      refine ⟨⟨[leEnc 8 a], rfl⟩, fun k i hk => ?_⟩
      simp only [GoMap.get_set]
      split
      · rename_i e
        rw [e, hi] at hk
        cases hk
      · exact hk
    refine ⟨?_, hle, by simp, a, h.objects.length + 1, hd, by simp [GoMap.get_set], by omega, by simp⟩
    intro d' a' i' hd' hi'
    simp only [GoMap.get_set] at hi'
    split at hi'
    · rename_i e
      have := dimRefKey_inj e
      subst this
      rw [hd] at hd'
      cases hd'
      cases hi'
      exact ⟨by omega, by simp⟩
    · exact Heap.objAt_le hle (hw d' a' i' hd' hi')

theorem RefReady.le {h h' : Heap} {da : GoMap Nat} {d : Bytes} (hl : h.Le h')
    (hr : RefReady h da d) : RefReady h' da d := by
  obtain ⟨a, i, h1, h2, h3⟩ := hr
  exact ⟨a, i, h1, hl.2 _ _ h2, Heap.objAt_le hl h3⟩

theorem addRefs_ok (da : GoMap Nat) (ds : List Bytes) (h : Heap) (hw : RefWF da h) :
    RefWF da (addRefs da ds h) ∧ h.Le (addRefs da ds h) ∧
      (addRefs da ds h).objects.length ≤ h.objects.length + ds.length ∧
      ∀ d ∈ ds, d ≠ [] → (da.get d).isSome = true → RefReady (addRefs da ds h) da d := by
  induction ds generalizing h with
  | nil => exact ⟨hw, Heap.Le.refl h, by simp [addRefs], by simp⟩
  | cons d ds ih =>
    simp only [addRefs]
    by_cases hd : d = []
    · rw [if_pos hd]
      obtain ⟨h1, h2, h3, h4⟩ := ih h hw
      refine ⟨h1, h2, by simp only [List.length_cons]; omega, ?_⟩
      intro e he hne hs
      rw [List.mem_cons] at he
      rcases he with rfl | he
      · exact absurd hd hne
      · exact h4 e he hne hs
    · rw [if_neg hd]
      cases hg : da.get d with
      | none =>
        obtain ⟨h1, h2, h3, h4⟩ := ih h hw
        refine ⟨h1, h2, by simp only [List.length_cons]; omega, ?_⟩
        intro e he hne hs
        rw [List.mem_cons] at he
        rcases he with rfl | he
        · rw [hg] at hs; cases hs
        · exact h4 e he hne hs
      | some a =>
        obtain ⟨g1, g2, g3, g4⟩ := addDimRef_ok da h d a hg hw
        obtain ⟨h1, h2, h3, h4⟩ := ih _ g1
        refine ⟨h1, g2.trans h2, by simp only [List.length_cons]; omega, ?_⟩
        intro e he hne hs
        rw [List.mem_cons] at he
        rcases he with rfl | he
        · exact g4.le h2
        · exact h4 e he hne hs

/-- The entries of the heap for references. -/
def Visit.refNeed : Visit → Nat
  | .var _ v => if v.isScale then 0 else v.dims.length
  | .grp .. => 0

theorem passRefs_ok (da : GoMap Nat) (vs : List Visit) (h : Heap) (hw : RefWF da h) :
    h.Le (passRefs da vs h) ∧
      (passRefs da vs h).objects.length ≤ h.objects.length + (vs.map Visit.refNeed).sum ∧
      ∀ p v, Visit.var p v ∈ vs → v.isScale = false → ∀ d ∈ v.dims, d ≠ [] →
        (da.get d).isSome = true → RefReady (passRefs da vs h) da d := by
  induction vs generalizing h with
  | nil => exact ⟨Heap.Le.refl h, by simp [passRefs], by simp⟩
  | cons x vs ih =>
    cases x with
    | grp p as =>
      obtain ⟨h1, h2, h3⟩ := ih h hw
      exact ⟨h1, by simpa [passRefs, Visit.refNeed] using h2,
        fun p v hm => h3 p v (by simpa using hm)⟩
    | var q w =>
      simp only [passRefs]
      cases hs : w.isScale with
      | true =>
        obtain ⟨h1, h2, h3⟩ := ih h hw
        refine ⟨h1, ?_, ?_⟩
        · simp only [↓reduceIte, List.map_cons, List.sum_cons]
          omega
        · intro p v hm hvs
          rw [List.mem_cons] at hm
          rcases hm with hm | hm
          · cases hm
            rw [hs] at hvs
            cases hvs
          · exact h3 p v hm hvs
      | false =>
        simp only [Bool.false_eq_true, ↓reduceIte]
        obtain ⟨g1, g2, g3, g4⟩ := addRefs_ok da w.dims h hw
        obtain ⟨h1, h2, h3⟩ := ih _ g1
        refine ⟨g2.trans h1, ?_, ?_⟩
        · simp only [List.map_cons, List.sum_cons, Visit.refNeed, hs, Bool.false_eq_true, ↓reduceIte]
          omega
        · intro p v hm hvs d hd hne hsome
          rw [List.mem_cons] at hm
          rcases hm with hm | hm
          · cases hm
            exact (g4 d hd hne hsome).le h1
          · exact h3 p v hm hvs d hd hne hsome

/-! ### All passes -/

/-- The values of a variable or a group can be collected. -/
def VisitOK : Visit → Prop
  | .var _ v => VarAny v.dims.length v.val ∧ NoRefStrs v.val ∧ ∀ p ∈ v.attrs.getD [], AttrAny p.2 ∧ NoRefStrs p.2
  | .grp _ as => ∀ p ∈ as.getD [], AttrAny p.2 ∧ NoRefStrs p.2

/-- The entries of the heap for a variable or a group. -/
def Visit.need : Visit → Nat
  | .var _ v => v.need
  | .grp _ as => attrsNeed as

/-- What the passes leave behind. -/
structure Collected (da : GoMap Nat) (vs : List Visit) (h : Heap) (t1 : VarTable) (t2 : AttrTable) :
    Prop where
  few : h.objects.length ≤ (vs.map Visit.need).sum
  vars : ∀ p v, Visit.var p v ∈ vs → ∀ H heap, h.Le H → HeapHas heap H →
    ∃ ty dims data, VarEnc heap (some H) ((t1.lookup (p, v.name)).getD []) v.val v.dims.length ty dims data
  attrs : ∀ x ∈ vs.flatMap Visit.items, ∀ H heap, h.Le H → HeapHas heap H →
    ∃ ty dims data, AttrEnc heap (some H) ((t2.lookup x.1).getD []) x.2 ty dims data
  refs : ∀ p v, Visit.var p v ∈ vs → v.isScale = false → ∀ d ∈ v.dims, d ≠ [] →
    (da.get d).isSome = true → RefReady h da d

theorem sum_flatMap_len (ws : List GoVal) :
    (ws.flatMap heapStrs).length = (ws.map fun w => (heapStrs w).length).sum := by
  induction ws with
  | nil => rfl
  | cons w ws ih => simp [ih]

/-- The strings of a visit. -/
def Visit.strNeed (x : Visit) : Nat := (x.vals.map fun w => (heapStrs w).length).sum

/-- The slices in the attributes of a visit. -/
def Visit.sliceNeed (x : Visit) : Nat := (x.items.map fun p => slicesIn p.2).sum

theorem sum_map_add {α : Type} (f g : α → Nat) (xs : List α) :
    (xs.map fun x => f x + g x).sum = (xs.map f).sum + (xs.map g).sum := by
  induction xs with
  | nil => rfl
  | cons x xs ih => simp only [List.map_cons, List.sum_cons, ih]; omega

theorem sum_flatMap {α β : Type} (f : α → List β) (g : β → Nat) (xs : List α) :
    ((xs.flatMap f).map g).sum = (xs.map fun x => ((f x).map g).sum).sum := by
  induction xs with
  | nil => rfl
  | cons x xs ih => simp [ih]

theorem Visit.need_eq (x : Visit) : x.need = x.strNeed + x.seqNeed + x.sliceNeed + x.refNeed := by
  cases x with
  | var p v =>
    simp only [Visit.need, HVar.need, varNeed, attrsNeed, attrNeed, Visit.strNeed, Visit.vals,
      Visit.seqNeed, Visit.sliceNeed, Visit.items, Visit.refNeed, List.map_cons, List.sum_cons,
      List.map_map]
    have := sum_map_add (fun p : Bytes × GoVal => (heapStrs p.2).length) (fun p => slicesIn p.2) (v.attrs.getD [])
    rw [this]
    show _ = _ + (List.map (fun p : Bytes × GoVal => (heapStrs p.2).length) _).sum + _ +
      (List.map (fun p : Bytes × GoVal => slicesIn p.2) _).sum + _
    omega
  | grp p as =>
    simp only [Visit.need, attrsNeed, attrNeed, Visit.strNeed, Visit.vals,
      Visit.seqNeed, Visit.sliceNeed, Visit.items, Visit.refNeed, List.map_map]
    have := sum_map_add (fun p : Bytes × GoVal => (heapStrs p.2).length) (fun p => slicesIn p.2) (as.getD [])
    rw [this]
    show _ = (List.map (fun p : Bytes × GoVal => (heapStrs p.2).length) _).sum + _ +
      (List.map (fun p : Bytes × GoVal => slicesIn p.2) _).sum + _
    omega

theorem collect_ok (ord : Order) (hord : OrderOK ord) (da : GoMap Nat) (root : HGroup)
    (hok : ∀ x ∈ visits [] root, VisitOK x)
    (hk1 : ((visits [] root).filterMap Visit.varKey).Nodup)
    (hk2 : (((visits [] root).flatMap Visit.items).map (·.1)).Nodup) :
    ∃ h t1 t2, collect false ord da root = .ok (h, t1, t2) ∧
      Collected da (visits [] root) h t1 t2 := by
  generalize hvs : visits [] root = vs at *
  have p0 := hord 0 vs
  have p1 := hord 1 vs
  have p2 := hord 2 vs
  have p3 := hord 3 vs
  have hw0 : (⟨0, [], []⟩ : Heap).StrWF := by
    intro k i hk
    cases hk
  obtain ⟨s1, s2⟩ := collectFold_step ((ord 0 vs).flatMap Visit.vals) ⟨0, [], []⟩ hw0
  rw [← passStrings_eq] at s1 s2
  generalize hh1 : passStrings (ord 0 vs) ⟨0, [], []⟩ = h1 at s1 s2
  have hvals : ∀ x ∈ vs, ∀ w ∈ x.vals, ∃ h0 : Heap, h0.StrWF ∧ (collectStrings h0 w).Le h1 := by
    intro x hx w hw
    exact s2 w (List.mem_flatMap.2 ⟨x, p0.mem_iff.2 hx, hw⟩)
  obtain ⟨h2, t1, e1, e2, e3, e4, -, e6⟩ := passVlens_ok (ord 1 vs) h1 [] (fun p v hm => by
      have hm' := p1.mem_iff.1 hm
      exact ⟨(hok _ hm').1, hvals _ hm' v.val (by simp [Visit.vals])⟩)
    ((p1.filterMap _).nodup_iff.2 hk1)
  have pf : ((ord 2 vs).flatMap Visit.items).Perm (vs.flatMap Visit.items) := p2.flatMap_right _
  obtain ⟨h3, t2, f1, f2, f3, f4, -, f6⟩ := attrFold_ok ((ord 2 vs).flatMap Visit.items) h2 []
    (fun p hp => by
      obtain ⟨x, hx, hxp⟩ := List.mem_flatMap.1 (pf.mem_iff.1 hp)
      have hxo := hok x hx
      have hval : p.2 ∈ x.vals ∧ AttrAny p.2 := by
        cases x with
        | var q v =>
          obtain ⟨a, ha, rfl⟩ := List.mem_map.1 hxp
          exact ⟨List.mem_cons_of_mem _ (List.mem_map_of_mem (f := (·.2)) ha), (hxo.2.2 a ha).1⟩
        | grp q as =>
          obtain ⟨a, ha, rfl⟩ := List.mem_map.1 hxp
          exact ⟨List.mem_map_of_mem (f := (·.2)) ha, (hxo a ha).1⟩
      obtain ⟨h0, g1, g2⟩ := hvals x hx p.2 hval.1
      exact ⟨hval.2, h0, g1, g2.trans e2⟩)
    ((pf.map _).nodup_iff.2 hk2) (fun _ _ => rfl)
  have hrw : RefWF da h3 := by
    intro d a i _ hi
    rw [f3, e3] at hi
    rcases s1.keys _ _ hi with h | h
    · cases h
    · exfalso
      obtain ⟨w, hw, hs⟩ := List.mem_flatMap.1 h
      obtain ⟨x, hx, hxw⟩ := List.mem_flatMap.1 hw
      have hxo := hok x (p0.mem_iff.1 hx)
      have : NoRefStrs w := by
        cases x with
        | var q v =>
          simp only [Visit.vals, List.mem_cons, List.mem_map] at hxw
          rcases hxw with rfl | ⟨a, ha, rfl⟩
          · exact hxo.2.1
          · exact (hxo.2.2 a ha).2
        | grp q as =>
          simp only [Visit.vals, List.mem_map] at hxw
          obtain ⟨a, ha, rfl⟩ := hxw
          exact (hxo a ha).2
      exact this _ hs ⟨d, rfl⟩
  obtain ⟨r1, r2, r3⟩ := passRefs_ok da (ord 3 vs) h3 hrw
  refine ⟨passRefs da (ord 3 vs) h3, t1, t2, ?_, ?_, ?_, ?_, ?_⟩
  · simp only [collect, hvs, hh1, e1, passAttrVlens_eq, f1]
  · have l1 := s1.len
    simp only [List.length_nil, Nat.zero_add] at l1
    have n1 : ((((ord 0 vs).flatMap Visit.vals).flatMap heapStrs).length) = (vs.map Visit.strNeed).sum := by
      rw [sum_flatMap_len, sum_flatMap]
      exact (p0.map Visit.strNeed).sum_nat
    have n2 := (p1.map Visit.seqNeed).sum_nat
    have n3 : (((ord 2 vs).flatMap Visit.items).map fun p => slicesIn p.2).sum = (vs.map Visit.sliceNeed).sum := by
      rw [sum_flatMap]
      exact (p2.map Visit.sliceNeed).sum_nat
    have n4 := (p3.map Visit.refNeed).sum_nat
    have n5 : (vs.map Visit.need).sum = (vs.map Visit.strNeed).sum + (vs.map Visit.seqNeed).sum +
        (vs.map Visit.sliceNeed).sum + (vs.map Visit.refNeed).sum := by
      rw [← sum_map_add, ← sum_map_add, ← sum_map_add]
      congr 2
      funext x
      exact x.need_eq
    omega
  · intro p v hm H heap hH hh
    exact e6 p v (p1.mem_iff.2 hm) H heap ((f2.trans r1).trans hH) hh
  · intro x hx H heap hH hh
    exact f6 x (pf.mem_iff.2 hx) H heap (r1.trans hH) hh
  · intro p v hm hs d hd hne hsome
    exact r3 p v (p3.mem_iff.2 hm) hs d hd hne hsome

end Verif.H5
