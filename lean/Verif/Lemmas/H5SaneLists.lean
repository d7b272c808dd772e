import Verif.Lemmas.H5Sane
import Verif.Lemmas.H5ApiTree
import Verif.Props.H5Path
/-!
The lists of variables and of subgroups for any tree in which siblings have different names, which
are not empty and have no slash.
-/
namespace Verif.H5.Sane
open Verif.H5

theorem Sane.inv {p : Info → Prop} {o : Obj} (h : Sane p o) :
    (o.kids.map (·.info.name)).Nodup ∧ p o.info ∧ ∀ k ∈ o.kids, Sane p k := by
  cases h with
  | mk i kids names addr below => exact ⟨names, addr, below⟩

theorem PlainNames.inv {o : Obj} (h : PlainNames o) :
    (∀ k ∈ o.kids, k.info.name ≠ [] ∧ slash ∉ k.info.name) ∧ ∀ k ∈ o.kids, PlainNames k := by
  cases h with
  | mk i kids names below => exact ⟨names, below⟩

theorem Sane.mono {p q : Info → Prop} (h : ∀ a, p a → q a) {o : Obj} (ho : Sane p o) : Sane q o := by
  induction ho with
  | mk i kids names addr below ih => exact .mk i kids names (h _ addr) ih

variable {p : Info → Prop}

theorem follow_group {o o' : Obj} {names : List Bytes} (h : follow o names = some o') :
    o'.info.isGroup = true := by
  induction names generalizing o with
  | nil =>
    simp only [follow] at h
    split at h
    · rename_i hg; cases h; exact hg
    · cases h
  | cons n ns ih =>
    rw [follow] at h
    split at h
    · split at h
      · exact ih h
      · cases h
    · cases h

theorem follow_below {q : Obj → Prop} (hq : ∀ o, q o → ∀ k ∈ o.kids, q k) {o o' : Obj}
    {names : List Bytes} (h : follow o names = some o') (ho : q o) : q o' := by
  induction names generalizing o with
  | nil =>
    simp only [follow] at h
    split at h
    · cases h; exact ho
    · cases h
  | cons n ns ih =>
    rw [follow] at h
    split at h
    · split at h
      · rename_i c hc
        exact ih h (hq o ho c (List.mem_of_find?_eq_some hc))
      · cases h
    · cases h

theorem slash_snoc {p : List Bytes} {n : Bytes} (hp : ∀ n ∈ p, slash ∉ n) (hn : slash ∉ n) :
    ∀ m ∈ p ++ [n], slash ∉ m := by
  intro m hm
  rw [List.mem_append, List.mem_singleton] at hm
  rcases hm with hm | rfl
  · exact hp m hm
  · exact hn

theorem varDescend_off' (G : Group) (names : List Bytes) (hG : G.name = slash :: dirs names)
    (hn : ∀ n ∈ names, slash ∉ n) {o : Obj} (h : PlainNames o) : ∀ p : List Bytes,
      (∀ n ∈ p, slash ∉ n) → ¬ p <+: names → varDescend G o (slash :: dirs p) = [] := by
  induction h with
  | mk i kids hk hb ih =>
    intro p hp hnp
    have hg : slash :: dirs p ≠ G.name := by
      rw [hG]
      intro e
      simp only [List.cons.injEq, true_and] at e
      exact hnp (dirs_inj hp hn e ▸ List.prefix_refl _)
    rw [varDescend_kids, Obj.kids]
    refine varDescendL_other G kids _ hg ?_
    intro k hkm
    have := ih k hkm (p ++ [k.info.name]) (slash_snoc hp (hk k hkm).2)
      (fun hpre => hnp ((List.prefix_append _ _).trans hpre))
    simpa [dirs_append, dirs] using this

theorem not_prefix_sibling {p q : List Bytes} {a n : Bytes} (h : a ≠ n) :
    ¬ p ++ [a] <+: p ++ n :: q := by
  rintro ⟨t, ht⟩
  rw [List.append_assoc] at ht
  have := List.append_cancel_left ht
  simp only [List.singleton_append, List.cons.injEq] at this
  exact h this.1

theorem varDescend_on' (G : Group) (q : List Bytes) :
    ∀ (ps : List Bytes) (o o' : Obj), G.name = slash :: dirs (ps ++ q) →
      (∀ n ∈ ps ++ q, slash ∉ n) → Sane p o → PlainNames o → follow o q = some o' →
      varDescend G o (slash :: dirs ps) =
        (o'.kids.map (·.info.name)).filter fun n => (G.findVariable n).isSome := by
  induction q with
  | nil =>
    intro ps o o' hG hn hs hpl hf
    have hg := follow_group hf
    simp only [follow] at hf
    split at hf
    · cases hf
      rw [List.append_nil] at hG
      rw [← hG, varDescend_kids]
      exact varDescendL_self G _ fun x hx => (hpl.inv.1 x hx).1
    · cases hf
  | cons n q ih =>
    intro ps o o' hG hn hs hpl hf
    have hps : ∀ m ∈ ps, slash ∉ m := fun m hm => hn m (by simp [hm])
    have hg : slash :: dirs ps ≠ G.name := by
      rw [hG]
      intro e
      simp only [List.cons.injEq, true_and] at e
      have := congrArg List.length (dirs_inj hps hn e)
      simp at this
    rw [follow] at hf
    split at hf
    · split at hf
      · rename_i k hk
        have hkm := List.mem_of_find?_eq_some hk
        have hkn : k.info.name = n := by simpa using List.find?_some hk
        rw [varDescend_kids, varDescendL_pick G _ _ hg k hkm hs.inv.1]
        · have := ih (ps ++ [k.info.name]) k o' (by rw [hG, hkn]; simp) (by
            rw [hkn]
            simpa using hn) (hs.inv.2.2 k hkm) (hpl.inv.2 k hkm) hf
          rw [← this]
          simp [dirs]
        · intro x hx hxk
          have := varDescend_off' G (ps ++ n :: q) hG hn (hpl.inv.2 x hx) (ps ++ [x.info.name])
            (slash_snoc hps (hpl.inv.1 x hx).2) (not_prefix_sibling (hkn ▸ hxk))
          simpa [dirs_append, dirs] using this
      · cases hf
    · cases hf

theorem subDescend_off' (names : List Bytes) (hn : ∀ n ∈ names, slash ∉ n) {o : Obj}
    (h : PlainNames o) : ∀ p : List Bytes, (∀ n ∈ p, slash ∉ n) → ¬ p <+: names →
      ¬ names <+: p → subDescend (slash :: dirs names) o (slash :: dirs p) = .ok [] := by
  induction h with
  | mk i kids hk hb ih =>
    intro p hp hnp hpn
    by_cases hg : i.isGroup = true
    · rw [subDescend_kids _ (.mk i kids) _ hg (by rw [prefix_of_dirs hn hp hpn]; simp), Obj.kids]
      refine subDescendL_none _ _ _ ?_
      intro k hkm
      have := ih k hkm (p ++ [k.info.name]) (slash_snoc hp (hk k hkm).2)
        (fun hpre => hnp ((List.prefix_append _ _).trans hpre)) (by
          intro hpre
          rcases List.prefix_concat_iff.1 hpre with h | h
          · rw [h] at hnp
            exact hnp (List.prefix_append _ _)
          · exact hpn h)
      simpa [dirs_append, dirs] using this
    · exact subDescend_var _ _ (.mk i kids) (by simpa [Obj.info] using hg)

theorem subDescendL_self' (names : List Bytes) (hn : ∀ n ∈ names, slash ∉ n) (xs : List Obj)
    (h : ∀ x ∈ xs, slash ∉ x.info.name) :
    subDescendL (slash :: dirs names) xs (slash :: dirs names) =
      .ok ((xs.filter (·.info.isGroup)).map (·.info.name)) := by
  induction xs with
  | nil => rfl
  | cons x xs ih =>
    have ih := ih (fun y hy => h y (by simp [hy]))
    by_cases hg : x.info.isGroup = true
    · have hc := subDescend_child names hn x hg (h x (by simp))
      rw [List.filter_cons_of_pos (by exact hg)]
      cases x with
      | mk i kids =>
      simp only [Obj.info] at hc
      rw [subDescendL, hc, ih]
      rfl
    · rw [List.filter_cons_of_neg (by exact hg)]
      have hc := subDescend_var (slash :: dirs names) (slash :: dirs names ++ x.info.name ++ [slash]) x
        (by simpa using hg)
      cases x with
      | mk i kids =>
      simp only [Obj.info] at hc
      rw [subDescendL, hc, ih]
      rfl

theorem subDescend_on' (q : List Bytes) :
    ∀ (ps : List Bytes) (o o' : Obj),
      (∀ n ∈ ps ++ q, slash ∉ n) → Sane p o → PlainNames o → follow o q = some o' →
      subDescend (slash :: dirs (ps ++ q)) o (slash :: dirs ps) =
        .ok ((o'.kids.filter (·.info.isGroup)).map (·.info.name)) := by
  induction q with
  | nil =>
    intro ps o o' hn hs hpl hf
    have hg := follow_group hf
    simp only [follow] at hf
    split at hf
    · cases hf
      rw [List.append_nil] at hn ⊢
      rw [subDescend_kids _ _ _ hg (by simp)]
      exact subDescendL_self' ps hn _ fun x hx => (hpl.inv.1 x hx).2
    · cases hf
  | cons n q ih =>
    intro ps o o' hn hs hpl hf
    have hps : ∀ m ∈ ps, slash ∉ m := fun m hm => hn m (by simp [hm])
    rw [follow] at hf
    split at hf
    · rename_i hg
      split at hf
      · rename_i k hk
        have hkm := List.mem_of_find?_eq_some hk
        have hkn : k.info.name = n := by simpa using List.find?_some hk
        have hnp : ¬ ps ++ n :: q <+: ps := fun h => by
          have := h.length_le
          simp only [List.length_append, List.length_cons] at this
          omega
        rw [subDescend_kids _ o _ hg (by rw [prefix_of_dirs hn hps hnp]; simp),
          subDescendL_pick _ _ _ k hkm hs.inv.1]
        · have := ih (ps ++ [k.info.name]) k o' (by
            rw [hkn]
            simpa using hn) (hs.inv.2.2 k hkm) (hpl.inv.2 k hkm) hf
          rw [hkn] at this
          rw [← this, hkn]
          simp [dirs]
        · intro x hx hxk
          have hne : x.info.name ≠ n := hkn ▸ hxk
          have := subDescend_off' (ps ++ n :: q) hn (hpl.inv.2 x hx) (ps ++ [x.info.name])
            (slash_snoc hps (hpl.inv.1 x hx).2) (not_prefix_sibling hne) (by
              rintro ⟨t, ht⟩
              rw [List.append_assoc] at ht
              have := List.append_cancel_left ht
              simp only [List.cons_append, List.cons.injEq] at this
              exact hne this.1.symm)
          simpa [dirs_append, dirs] using this
      · cases hf
    · cases hf

end Verif.H5.Sane
