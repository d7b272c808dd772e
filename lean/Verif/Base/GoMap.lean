import Verif.Base.Bytes
/-!
Go maps with string keys, as association lists with at most one entry per key.
-/
namespace Verif

/-- Go `map[string]α`. -/
abbrev GoMap (α : Type u) := List (Bytes × α)

namespace GoMap

/-- `m[k]` with the `ok` flag. -/
def get {α : Type u} (m : GoMap α) (k : Bytes) : Option α := List.lookup k m

/-- `m[k] = v`: an existing entry is updated in place, a new one is appended. -/
def set {α : Type u} : GoMap α → Bytes → α → GoMap α
  | [], k, v => [(k, v)]
  | (k', v') :: m, k, v => if k' = k then (k, v) :: m else (k', v') :: set m k v

/-- The keys, in the order the model stores them. -/
def keys {α : Type u} (m : GoMap α) : List Bytes := m.map (·.1)

@[simp] theorem get_nil {α : Type u} (k : Bytes) : get ([] : GoMap α) k = none := rfl

theorem get_cons {α : Type u} (k' : Bytes) (v' : α) (m : GoMap α) (k : Bytes) :
    get ((k', v') :: m) k = if k = k' then some v' else get m k := by
  simp only [get, List.lookup_cons]
  by_cases h : k = k'
  · simp [h]
  · have : (k == k') = false := by simpa using h
    simp [this, h]

theorem get_set {α : Type u} (m : GoMap α) (k : Bytes) (v : α) (k2 : Bytes) :
    get (set m k v) k2 = if k2 = k then some v else get m k2 := by
  induction m with
  | nil => simp [set, get_cons]
  | cons p m ih =>
    obtain ⟨k', v'⟩ := p
    by_cases h : k' = k
    · subst h
      simp only [set, if_true, get_cons]
      split <;> rfl
    · simp only [set, h, if_false, get_cons, ih]
      by_cases h2 : k2 = k
      · have : ¬ k2 = k' := fun h3 => h (by rw [← h3, h2])
        subst h2
        simp [this]
      · simp [h2]

theorem get_eq_none {α : Type u} (m : GoMap α) (k : Bytes) :
    get m k = none ↔ k ∉ keys m := by
  induction m with
  | nil => simp [keys]
  | cons p m ih =>
    obtain ⟨k', v'⟩ := p
    rw [get_cons]
    by_cases h : k = k'
    · simp [h, keys]
    · simp only [h, if_false, ih]
      simp [keys, h]

theorem get_isSome {α : Type u} (m : GoMap α) (k : Bytes) :
    (get m k).isSome ↔ k ∈ keys m := by
  have := get_eq_none m k
  cases hg : get m k <;> simp_all

theorem keys_set_of_mem {α : Type u} (m : GoMap α) (k : Bytes) (v : α) (h : k ∈ keys m) :
    keys (set m k v) = keys m := by
  induction m with
  | nil => simp [keys] at h
  | cons p m ih =>
    obtain ⟨k', v'⟩ := p
    by_cases hk : k' = k
    · subst hk
      simp [set, keys]
    · have h' : k ∈ keys m := by
        simp only [keys, List.map_cons, List.mem_cons] at h
        rcases h with h | h
        · exact absurd h.symm hk
        · exact h
      have := ih h'
      simp only [keys] at this
      simp [set, hk, keys, this]

theorem set_of_not_mem {α : Type u} (m : GoMap α) (k : Bytes) (v : α) (h : k ∉ keys m) :
    set m k v = m ++ [(k, v)] := by
  induction m with
  | nil => rfl
  | cons p m ih =>
    obtain ⟨k', v'⟩ := p
    simp only [keys, List.map_cons, List.mem_cons, not_or] at h
    have hk : ¬ k' = k := fun e => h.1 e.symm
    simp [set, hk, ih h.2]

theorem keys_set_of_not_mem {α : Type u} (m : GoMap α) (k : Bytes) (v : α) (h : k ∉ keys m) :
    keys (set m k v) = keys m ++ [k] := by
  rw [set_of_not_mem m k v h]
  simp [keys]

theorem mem_keys_set {α : Type u} (m : GoMap α) (k : Bytes) (v : α) (k2 : Bytes) :
    k2 ∈ keys (set m k v) ↔ k2 = k ∨ k2 ∈ keys m := by
  by_cases h : k ∈ keys m
  · rw [keys_set_of_mem m k v h]
    constructor
    · exact Or.inr
    · rintro (rfl | h2)
      · exact h
      · exact h2
  · rw [keys_set_of_not_mem m k v h]
    simp only [List.mem_append, List.mem_singleton]
    exact Or.comm

theorem nodup_keys_set {α : Type u} (m : GoMap α) (k : Bytes) (v : α) (h : (keys m).Nodup) :
    (keys (set m k v)).Nodup := by
  by_cases hk : k ∈ keys m
  · rwa [keys_set_of_mem m k v hk]
  · rw [keys_set_of_not_mem m k v hk]
    rw [List.nodup_append]
    refine ⟨h, by simp, ?_⟩
    intro a ha b hb
    simp at hb
    subst hb
    intro e
    exact hk (e ▸ ha)

end GoMap
end Verif
