import Verif.Model.OrderedMap
/-! Sorting of Go strings, induction from the end of a list. -/
namespace Verif

theorem strLe_total (a b : Bytes) : strLe a b || strLe b a := by
  induction a generalizing b with
  | nil => simp [strLe]
  | cons x xs ih =>
    cases b with
    | nil => simp [strLe]
    | cons y ys =>
      simp only [strLe, Bool.or_eq_true, decide_eq_true_eq, Bool.and_eq_true, beq_iff_eq]
      have := ih ys
      simp only [Bool.or_eq_true] at this
      rcases Nat.lt_trichotomy x.toNat y.toNat with h | h | h
      · exact Or.inl (Or.inl (UInt8.lt_iff_toNat_lt.mpr h))
      · have hxy : x = y := UInt8.toNat_inj.mp h
        subst hxy
        rcases this with h2 | h2
        · exact Or.inl (Or.inr ⟨rfl, h2⟩)
        · exact Or.inr (Or.inr ⟨rfl, h2⟩)
      · exact Or.inr (Or.inl (UInt8.lt_iff_toNat_lt.mpr h))

theorem strLe_trans (a b c : Bytes) : strLe a b → strLe b c → strLe a c := by
  induction a generalizing b c with
  | nil => intros; simp [strLe]
  | cons x xs ih =>
    cases b with
    | nil => intro h; simp [strLe] at h
    | cons y ys =>
      cases c with
      | nil => intro _ h; simp [strLe] at h
      | cons z zs =>
        simp only [strLe, Bool.or_eq_true, decide_eq_true_eq, Bool.and_eq_true, beq_iff_eq]
        simp only [UInt8.lt_iff_toNat_lt]
        rintro (h1 | ⟨rfl, h1⟩) (h2 | ⟨rfl, h2⟩)
        · exact Or.inl (by omega)
        · exact Or.inl h1
        · exact Or.inl h2
        · exact Or.inr ⟨rfl, ih ys zs h1 h2⟩

theorem strLe_antisymm (a b : Bytes) : strLe a b → strLe b a → a = b := by
  induction a generalizing b with
  | nil =>
    cases b with
    | nil => intros; rfl
    | cons => intro _ h; simp [strLe] at h
  | cons x xs ih =>
    cases b with
    | nil => intro h; simp [strLe] at h
    | cons y ys =>
      simp only [strLe, Bool.or_eq_true, decide_eq_true_eq, Bool.and_eq_true, beq_iff_eq]
      simp only [UInt8.lt_iff_toNat_lt]
      rintro (h1 | ⟨h0, h1⟩) (h2 | ⟨h3, h2⟩)
      · omega
      · subst h3; omega
      · subst h0; omega
      · subst h0; rw [ih ys h1 h2]

theorem insertSorted_perm (x : Bytes) (l : List Bytes) : (insertSorted x l).Perm (x :: l) := by
  induction l with
  | nil => exact List.Perm.refl _
  | cons y ys ih =>
    simp only [insertSorted]
    split
    · exact List.Perm.refl _
    · exact (ih.cons y).trans (List.Perm.swap x y ys)

theorem sortStrings_perm (l : List Bytes) : (sortStrings l).Perm l := by
  induction l with
  | nil => exact List.Perm.refl _
  | cons x xs ih => exact (insertSorted_perm x _).trans (ih.cons x)

theorem insertSorted_sorted (x : Bytes) (l : List Bytes)
    (h : l.Pairwise (fun a b => strLe a b = true)) :
    (insertSorted x l).Pairwise (fun a b => strLe a b = true) := by
  induction l with
  | nil => simp [insertSorted]
  | cons y ys ih =>
    simp only [insertSorted]
    rw [List.pairwise_cons] at h
    split
    · rename_i hxy
      refine List.pairwise_cons.mpr ⟨?_, List.pairwise_cons.mpr h⟩
      intro z hz
      rcases List.mem_cons.mp hz with rfl | hz
      · exact hxy
      · exact strLe_trans x y z hxy (h.1 z hz)
    · rename_i hxy
      refine List.pairwise_cons.mpr ⟨?_, ih h.2⟩
      intro z hz
      rcases List.mem_cons.mp ((insertSorted_perm x ys).mem_iff.mp hz) with rfl | hz
      · have := strLe_total z y
        simp only [Bool.or_eq_true] at this
        rcases this with h' | h'
        · exact absurd h' hxy
        · exact h'
      · exact h.1 z hz

theorem sortStrings_sorted (l : List Bytes) :
    (sortStrings l).Pairwise (fun a b => strLe a b = true) := by
  induction l with
  | nil => simp [sortStrings]
  | cons x xs ih => exact insertSorted_sorted x _ ih

theorem sortStrings_eq_iff (a b : List Bytes) : sortStrings a = sortStrings b ↔ a.Perm b := by
  constructor
  · intro h
    have h1 := sortStrings_perm a
    rw [h] at h1
    exact h1.symm.trans (sortStrings_perm b)
  · intro h
    have p : (sortStrings a).Perm (sortStrings b) :=
      ((sortStrings_perm a).trans h).trans (sortStrings_perm b).symm
    exact List.Perm.eq_of_pairwise (fun x y _ _ => strLe_antisymm x y)
      (sortStrings_sorted a) (sortStrings_sorted b) p

/-- Induction from the end of a list. -/
theorem list_rev_ind {α : Type u} {motive : List α → Prop} (nil : motive [])
    (append_singleton : ∀ l a, motive l → motive (l ++ [a])) (l : List α) : motive l := by
  have : ∀ l : List α, motive l.reverse := by
    intro l
    induction l with
    | nil => exact nil
    | cons a l ih => simpa using append_singleton l.reverse a ih
  simpa using this l.reverse

end Verif
