import Verif.Lemmas.OrderedMap
/-!
C20, C21: the ordered attribute map.
-/
namespace Verif

/-! ### C21 NewOrderedMap accepts exactly consistent input -/

/-- **C21.** For every key list and every Go map (an association list with distinct keys, in
any iteration order) `NewOrderedMap` succeeds exactly when the key list enumerates the keys of
the map without repetition. -/
theorem C21_new_ok_iff {α : Type} (keys : List Bytes) (values : GoMap α)
    (hmap : (values.map (·.1)).Nodup) :
    (∃ om, OMap.new keys values = .ok om) ↔
      (keys.Nodup ∧ ∀ k, k ∈ keys ↔ k ∈ values.map (·.1)) := by
  have key : (∃ om, OMap.new keys values = .ok om) ↔ (values.map (·.1)).Perm keys := by
    unfold OMap.new
    by_cases hl : keys.length = values.length
    · simp only [hl, ne_eq, not_true_eq_false, if_false]
      by_cases hs : sortStrings (GoMap.keys values) = sortStrings keys
      · simp only [hs, not_true_eq_false, if_false]
        exact ⟨fun _ => (sortStrings_eq_iff _ _).mp hs, fun _ => ⟨_, rfl⟩⟩
      · simp only [hs, not_false_eq_true, if_true]
        constructor
        · rintro ⟨_, h⟩; cases h
        · intro h; exact absurd ((sortStrings_eq_iff _ _).mpr h) hs
    · simp only [ne_eq, hl, not_false_eq_true, if_true]
      constructor
      · rintro ⟨_, h⟩; cases h
      · intro h
        have := h.length_eq
        simp only [List.length_map] at this
        exact absurd this.symm hl
  rw [key]
  constructor
  · intro p
    exact ⟨p.nodup_iff.mp hmap, fun k => p.mem_iff.symm⟩
  · rintro ⟨hn, hk⟩
    exact (List.perm_ext_iff_of_nodup hmap hn).mpr (fun a => (hk a).symm)

/-- When it succeeds, the map shows the given keys in the given order with the given values. -/
theorem C21_new_keys_get {α : Type} (keys : List Bytes) (values : GoMap α) (om : OMap α)
    (h : OMap.new keys values = .ok om) :
    om.visibleKeys = keys ∧ ∀ k, om.get k = values.get k := by
  unfold OMap.new at h
  split at h
  · cases h
  · simp only at h
    split at h
    · cases h
    · cases h
      exact ⟨rfl, fun _ => rfl⟩

example : ∃ om, OMap.new (α := Nat) [[98], [97]] [([97], 1), ([98], 2)] = .ok om :=
  (C21_new_ok_iff _ _ (by decide)).mpr ⟨by decide, by intro k; simp [or_comm]⟩

/-! ### C20 the map as an insertion-ordered finite map -/

/-- The calls a user can make on an ordered map. -/
inductive OMap.Op (α : Type)
  | add (k : Bytes) (v : α)
  | hide (k : Bytes)

/-- Effect of one call on the model. -/
def OMap.Op.run {α : Type} (om : OMap α) : OMap.Op α → OMap α
  | .add k v => om.add k v
  | .hide k => om.hide k

/-- Specification: the keys added by a history, in order. -/
def specAdded {α : Type} : List (OMap.Op α) → List Bytes
  | [] => []
  | .add k _ :: ops => k :: specAdded ops
  | .hide _ :: ops => specAdded ops

/-- Specification: the keys hidden by a history. -/
def specHidden {α : Type} : List (OMap.Op α) → List Bytes
  | [] => []
  | .add _ _ :: ops => specHidden ops
  | .hide k :: ops => k :: specHidden ops

/-- Specification: the last value added under a key. -/
def specLast {α : Type} (k : Bytes) : List (OMap.Op α) → Option α
  | [] => none
  | .add k' v :: ops => (specLast k ops).or (if k' = k then some v else none)
  | .hide _ :: ops => specLast k ops

theorem specAdded_append {α : Type} (a b : List (OMap.Op α)) :
    specAdded (a ++ b) = specAdded a ++ specAdded b := by
  induction a with
  | nil => rfl
  | cons o a ih => cases o <;> simp [specAdded, ih]

theorem specHidden_append {α : Type} (a b : List (OMap.Op α)) :
    specHidden (a ++ b) = specHidden a ++ specHidden b := by
  induction a with
  | nil => rfl
  | cons o a ih => cases o <;> simp [specHidden, ih]

theorem specLast_append {α : Type} (k : Bytes) (a b : List (OMap.Op α)) :
    specLast k (a ++ b) = (specLast k b).or (specLast k a) := by
  induction a with
  | nil => simp [specLast]
  | cons o a ih => cases o <;> simp [specLast, ih, Option.or_assoc]

theorem omap_run_inv {α : Type} (om : OMap α) (h0 : om.hidden = []) (h1 : om.visible = om.keys)
    (ops : List (OMap.Op α)) :
    let om' := ops.foldl OMap.Op.run om
    (∀ k, k ∈ om'.hidden ↔ k ∈ specHidden ops) ∧
    (om'.visible = (om.keys ++ specAdded ops).filter (fun k => ¬ k ∈ specHidden ops)) ∧
    (om'.keys.filter (fun k => ¬ k ∈ specHidden ops) = om'.visible) ∧
    (∀ k, om'.get k = (specLast k ops).or (om.get k)) := by
  induction ops using list_rev_ind with
  | nil =>
    simp [specHidden, specAdded, h0, h1, specLast]
    exact (List.filter_eq_self.mpr (by simp)).symm
  | append_singleton ops o ih =>
    simp only [List.foldl_append, List.foldl_cons, List.foldl_nil]
    obtain ⟨ih1, ih2, ih3, ih4⟩ := ih
    generalize hom : ops.foldl OMap.Op.run om = om' at ih1 ih2 ih3 ih4
    cases o with
    | add k v =>
      have hget : ∀ k2, (om'.add k v).get k2 = if k2 = k then some v else om'.get k2 := by
        intro k2
        unfold OMap.add OMap.get
        split <;> simp [GoMap.get_set]
      refine ⟨?_, ?_, ?_, ?_⟩
      · intro k2
        simp only [specHidden_append, specHidden, List.append_nil, ← ih1]
        simp only [OMap.Op.run, OMap.add]
        split <;> rfl
      · simp only [OMap.Op.run, OMap.add, specHidden_append, specAdded_append, specHidden,
          specAdded, List.append_nil]
        rw [← List.append_assoc, List.filter_append, ← ih2]
        by_cases hk : k ∈ om'.hidden
        · have := (ih1 k).mp hk
          simp [hk, this]
        · have : k ∉ specHidden ops := fun h => hk ((ih1 k).mpr h)
          simp [hk, this]
      · simp only [OMap.Op.run, OMap.add, specHidden_append, specHidden, List.append_nil]
        by_cases hk : k ∈ om'.hidden
        · simp only [hk, not_true_eq_false, if_false]
          exact ih3
        · have : k ∉ specHidden ops := fun h => hk ((ih1 k).mpr h)
          simp only [hk, not_false_eq_true, if_true, List.filter_append, ih3]
          simp [this]
      · intro k2
        simp only [OMap.Op.run, hget, specLast_append, specLast]
        by_cases h : k = k2
        · subst h; simp
        · have h' : ¬ k2 = k := fun e => h e.symm
          simp [h, h', ih4]
    | hide k =>
      have hmem : ∀ k2, (k2 ∈ k :: om'.hidden) ↔ k2 ∈ specHidden (ops ++ [.hide k]) := by
        intro k2
        simp only [specHidden_append, specHidden, List.mem_append, List.mem_cons,
          List.not_mem_nil, or_false, ih1]
        exact Or.comm
      have hfil : ∀ l : List Bytes, l.filter (fun x => ¬ x ∈ k :: om'.hidden)
          = l.filter (fun x => ¬ x ∈ specHidden (ops ++ [.hide k])) := by
        intro l
        apply List.filter_congr
        intro x _
        have := hmem x
        simp only [decide_not]
        simp only [this]
      refine ⟨hmem, ?_, ?_, ?_⟩
      · show om'.keys.filter (fun x => ¬ x ∈ k :: om'.hidden) = _
        have e1 : ∀ l : List Bytes, l.filter (fun x => ¬ x ∈ specHidden (ops ++ [.hide k]))
            = (l.filter (fun x => ¬ x ∈ specHidden ops)).filter (fun x => ¬ x = k) := by
          intro l
          rw [List.filter_filter]
          apply List.filter_congr
          intro x _
          simp [specHidden_append, specHidden, and_comm]
        rw [hfil, e1, ih3, ih2, specAdded_append]
        simp only [specAdded, List.append_nil]
        rw [e1]
      · show om'.keys.filter _ = om'.keys.filter _
        exact (hfil _).symm
      · intro k2
        simp only [specLast_append, specLast, Option.none_or]
        exact ih4 k2

/-- **C20, exact behaviour.** After any history of `Add` and `Hide` calls on a freshly built
map, `Get` returns the last value added (or the initial one), and `Keys` lists the initial keys
followed by the added keys in call order, without the hidden ones. -/
theorem C20_run {α : Type} (keys : List Bytes) (values : GoMap α) (om : OMap α)
    (h : OMap.new keys values = .ok om) (ops : List (OMap.Op α)) :
    (ops.foldl OMap.Op.run om).visibleKeys
      = (keys ++ specAdded ops).filter (fun k => ¬ k ∈ specHidden ops) ∧
    ∀ k, (ops.foldl OMap.Op.run om).get k = (specLast k ops).or (values.get k) := by
  obtain ⟨hk, hg⟩ := C21_new_keys_get keys values om h
  have hom : om.hidden = [] ∧ om.visible = om.keys ∧ om.keys = keys := by
    unfold OMap.new at h
    split at h
    · cases h
    · simp only at h
      split at h
      · cases h
      · cases h; exact ⟨rfl, rfl, rfl⟩
  have inv := omap_run_inv om hom.1 hom.2.1 ops
  simp only at inv
  refine ⟨?_, ?_⟩
  · have := inv.2.1
    rw [hom.2.2] at this
    exact this
  · intro k
    rw [inv.2.2.2 k, hg]

/-- **C20, partial.** If no key is added twice, `Keys` lists each visible key exactly once. The
full property (also for keys that are added again) is false, see `C20_negation`. -/
theorem C20_keys_nodup_partial {α : Type} (keys : List Bytes) (values : GoMap α) (om : OMap α)
    (h : OMap.new keys values = .ok om) (ops : List (OMap.Op α))
    (hfresh : (keys ++ specAdded ops).Nodup) :
    (ops.foldl OMap.Op.run om).visibleKeys.Nodup ∧
    ∀ k, k ∈ (ops.foldl OMap.Op.run om).visibleKeys ↔
      ((k ∈ keys ∨ k ∈ specAdded ops) ∧ k ∉ specHidden ops) := by
  rw [(C20_run keys values om h ops).1]
  refine ⟨hfresh.filter _, ?_⟩
  intro k
  simp only [List.mem_filter, List.mem_append, decide_not, Bool.not_eq_true',
    decide_eq_false_iff_not]

/-- **C20 is false as stated**: adding an existing key again lists it twice. -/
theorem C20_negation :
    ∃ (om : OMap Nat), OMap.new [[97]] [([97], 1)] = .ok om ∧
      ¬ ((om.add [97] 2).visibleKeys).Nodup := by
  refine ⟨{ keys := [[97]], values := [([97], 1)], visible := [[97]], hidden := [] }, ?_, ?_⟩
  · decide
  · decide

example : (([[97]] : List Bytes) ++ specAdded
    [OMap.Op.add [98] 5, OMap.Op.hide [97], OMap.Op.add [99] 7]).Nodup := by decide

end Verif
