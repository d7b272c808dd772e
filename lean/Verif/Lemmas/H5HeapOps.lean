import Verif.Spec.H5Heap
import Verif.Lemmas.H5Heap
/-!
Indices recorded by the writer of the global heap.
-/
namespace Verif.H5

/-- The object at a recorded index. -/
def Heap.objAt (h : Heap) (i : Nat) (b : Bytes) : Prop := 0 < i ∧ h.objects[i - 1]? = some b

/-- Every index of the table has its string, or the reference of the dimension. -/
def Heap.WF (dimAddr : Bytes → Nat) (h : Heap) : Prop :=
  ∀ k i, h.indices.get k = some i →
    ((∀ d, k ≠ dimRefKey d) ∧ h.objAt i k) ∨ (∃ d, k = dimRefKey d ∧ h.objAt i (leEnc 8 (dimAddr d)))

theorem Heap.Le.refl (h : Heap) : h.Le h := ⟨⟨[], by simp⟩, fun _ _ h => h⟩

theorem Heap.Le.trans {a b c : Heap} (h1 : a.Le b) (h2 : b.Le c) : a.Le c := by
  obtain ⟨⟨t1, e1⟩, m1⟩ := h1
  obtain ⟨⟨t2, e2⟩, m2⟩ := h2
  exact ⟨⟨t1 ++ t2, by rw [e2, e1, List.append_assoc]⟩, fun k i h => m2 k i (m1 k i h)⟩

theorem Heap.objAt_le {h h' : Heap} (hl : h.Le h') {i : Nat} {b : Bytes} (ho : h.objAt i b) :
    h'.objAt i b := by
  obtain ⟨⟨t, e⟩, -⟩ := hl
  refine ⟨ho.1, ?_⟩
  rw [e, List.getElem?_append_left]
  · exact ho.2
  · by_cases hlt : i - 1 < h.objects.length
    · exact hlt
    · have := ho.2
      rw [List.getElem?_eq_none (by omega)] at this
      cases this

/-- A string or reference under a new key. -/
theorem Heap.add_new (dimAddr : Bytes → Nat) (h : Heap) (k b : Bytes) (hw : h.WF dimAddr)
    (hk : h.indices.get k = none)
    (hb : ((∀ d, k ≠ dimRefKey d) ∧ b = k) ∨ (∃ d, k = dimRefKey d ∧ b = leEnc 8 (dimAddr d))) :
    let h' : Heap := { h with objects := h.objects ++ [b],
                              indices := h.indices.set k (h.objects.length + 1) }
    h'.WF dimAddr ∧ h.Le h' ∧ h'.indices.get k = some (h.objects.length + 1) ∧
      h'.objAt (h.objects.length + 1) b := by
  intro h'
  have hle : h.Le h' := by
    refine ⟨⟨[b], rfl⟩, ?_⟩
    intro k' i hi
    show (h.indices.set k (h.objects.length + 1)).get k' = some i
    rw [GoMap.get_set]
    by_cases e : k' = k
    · subst e
      rw [hk] at hi
      cases hi
    · rw [if_neg e]
      exact hi
  have hob : h'.objAt (h.objects.length + 1) b := by
    refine ⟨by omega, ?_⟩
    show (h.objects ++ [b])[h.objects.length + 1 - 1]? = some b
    simp
  have hget : ∀ k', h'.indices.get k' =
      if k' = k then some (h.objects.length + 1) else h.indices.get k' := by
    intro k'
    show (h.indices.set k (h.objects.length + 1)).get k' = _
    rw [GoMap.get_set]
  refine ⟨?_, hle, by rw [hget, if_pos rfl], hob⟩
  intro k' i hi
  rw [hget] at hi
  by_cases e : k' = k
  · rw [if_pos e] at hi
    obtain rfl : h.objects.length + 1 = i := by simpa using hi
    subst e
    rcases hb with ⟨h1, h2⟩ | ⟨d, h1, h2⟩
    · exact .inl ⟨h1, by rw [← h2]; exact hob⟩
    · exact .inr ⟨d, h1, by rw [← h2]; exact hob⟩
  · rw [if_neg e] at hi
    rcases hw k' i hi with ⟨h1, h2⟩ | ⟨d, h1, h2⟩
    · exact .inl ⟨h1, Heap.objAt_le hle h2⟩
    · exact .inr ⟨d, h1, Heap.objAt_le hle h2⟩

theorem dimRefKey_inj {a b : Bytes} (h : dimRefKey a = dimRefKey b) : a = b :=
  List.append_cancel_left h

/-- One call. -/
theorem HeapOp.run_ok (dimAddr : Bytes → Nat) (h : Heap) (op : HeapOp) (hw : h.WF dimAddr)
    (hp : op.Plain) :
    (op.run dimAddr h).1.WF dimAddr ∧ h.Le (op.run dimAddr h).1 ∧
      ∃ i, (op.run dimAddr h).2 = some i ∧ (op.run dimAddr h).1.objAt i (op.bytes dimAddr) := by
  cases op with
  | string s =>
    simp only [HeapOp.run, HeapOp.bytes, Heap.addString]
    cases hs : h.indices.get s with
    | some i =>
      refine ⟨hw, Heap.Le.refl h, i, hs, ?_⟩
      rcases hw s i hs with ⟨-, h2⟩ | ⟨d, h1, -⟩
      · exact h2
      · exact absurd h1 (hp d)
    | none =>
      obtain ⟨h1, h2, h3, h4⟩ := Heap.add_new dimAddr h s s hw hs (.inl ⟨hp, rfl⟩)
      exact ⟨h1, h2, _, h3, h4⟩
  | data b =>
    simp only [HeapOp.run, HeapOp.bytes, Heap.addObject]
    have hle : h.Le { h with objects := h.objects ++ [b] } := ⟨⟨[b], rfl⟩, fun _ _ h => h⟩
    refine ⟨?_, hle, _, rfl, by omega, ?_⟩
    · intro k i hi
      rcases hw k i hi with ⟨h1, h2⟩ | ⟨d, h1, h2⟩
      · exact .inl ⟨h1, Heap.objAt_le hle h2⟩
      · exact .inr ⟨d, h1, Heap.objAt_le hle h2⟩
    · show (h.objects ++ [b])[h.objects.length + 1 - 1]? = some b
      simp
  | dimRef d =>
    simp only [HeapOp.run, HeapOp.bytes, Heap.addDimRef]
    cases hs : h.indices.get (dimRefKey d) with
    | some i =>
      refine ⟨hw, Heap.Le.refl h, i, hs, ?_⟩
      rcases hw _ i hs with ⟨h1, -⟩ | ⟨d', h1, h2⟩
      · exact absurd rfl (h1 d)
      · rw [dimRefKey_inj h1]
        exact h2
    | none =>
      obtain ⟨h1, h2, h3, h4⟩ := Heap.add_new dimAddr h (dimRefKey d) (leEnc 8 (dimAddr d)) hw hs
        (.inr ⟨d, rfl, rfl⟩)
      exact ⟨h1, h2, _, h3, h4⟩

/-- A sequence of calls. -/
theorem runOps_ok (dimAddr : Bytes → Nat) (ops : List HeapOp) (h : Heap) (hw : h.WF dimAddr)
    (hp : ∀ op ∈ ops, op.Plain) :
    h.Le (runOps dimAddr h ops).1 ∧ (runOps dimAddr h ops).2.length = ops.length ∧
      ∀ k (hk : k < ops.length), ∃ i, (runOps dimAddr h ops).2[k]? = some (some i) ∧
        (runOps dimAddr h ops).1.objAt i ((ops[k]).bytes dimAddr) := by
  induction ops generalizing h with
  | nil => exact ⟨Heap.Le.refl h, rfl, fun k hk => by simp at hk⟩
  | cons op ops ih =>
    obtain ⟨h1, h2, i, h3, h4⟩ := op.run_ok dimAddr h hw (hp op (by simp))
    obtain ⟨h5, h6, h7⟩ := ih _ h1 (fun o ho => hp o (by simp [ho]))
    refine ⟨h2.trans h5, by simp [runOps, h6], ?_⟩
    intro k hk
    cases k with
    | zero => exact ⟨i, by simp [runOps, h3], Heap.objAt_le h5 h4⟩
    | succ k =>
      obtain ⟨j, hj1, hj2⟩ := h7 k (by simpa using hk)
      exact ⟨j, by simpa [runOps] using hj1, by simpa [runOps] using hj2⟩

end Verif.H5
