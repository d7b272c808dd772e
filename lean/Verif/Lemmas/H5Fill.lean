import Verif.Spec.H5Array
/-!
The fill value that is used is the one that was described.
-/
namespace Verif.H5

theorem numKind_stored (be : Bool) (k : Kind) : numKind (storedNum be k) = some (k, be) := by
  cases k <;> rfl

theorem stored_of_numKind {dt : DT} {k : Kind} {be : Bool} (h : numKind dt = some (k, be)) : dt = storedNum be k := by
  unfold numKind at h
  split at h <;> simp at h
  all_goals (obtain ⟨rfl, rfl⟩ := h)
  all_goals first | rfl | (rename_i s b; cases s <;> rfl)

theorem ncFill_std (k : Kind) : ncFill k = stdFill k := by
  cases k <;> rfl

theorem FillOf.pattern {i : Info} {dt : DT} {pat : Bytes} (h : FillOf i dt pat) : fillPattern i dt = .ok pat := by
  cases h with
  | given _ _ h1 h2 =>
    cases pat with
    | nil => exact absurd rfl h2
    | cons b bs => simp only [fillPattern, h1]
  | old _ _ h1 h2 h3 =>
    cases pat with
    | nil => exact absurd rfl h3
    | cons b bs => simp only [fillPattern, h1, h2]
  | undefLE k h1 => simp [fillPattern, h1, defaultFill, numKind_stored, hostEnc, ncFill_std]
  | undefBE k h1 => simp [fillPattern, h1, defaultFill, numKind_stored, hostEnc, ncFill_std, beEnc]
  | undefStr n h1 => simp [fillPattern, h1, defaultFill, numKind]
  | undefVlen n b t h1 => simp [fillPattern, h1, defaultFill, numKind]
  | zeros be k h1 h2 h3 => simp [fillPattern, h1, h2, defaultFill, numKind_stored, h3]
  | zero _ h1 h2 h3 =>
    simp only [fillPattern, h1, h2, defaultFill]
    cases hk : numKind dt with
    | some x =>
      obtain ⟨k, be⟩ := x
      obtain rfl := stored_of_numKind hk
      cases k <;> first | rfl | exact absurd rfl (h3 _ _)
    | none =>
      cases dt with
      | float n b => exact absurd rfl (h3 n b)
      | _ => rfl

/-- Without a description, zeros. -/
theorem fillOf_zero {i : Info} {dt : DT} {pat : Bytes} (h1 : i.fillValue = none) (h2 : i.fillValueOld = none)
    (h : defaultFill dt false = .ok pat) : FillOf i dt pat := by
  unfold defaultFill at h
  cases hk : numKind dt with
  | some x =>
    obtain ⟨k, be⟩ := x
    obtain rfl := stored_of_numKind hk
    rw [hk] at h
    cases k <;> obtain rfl : _ = pat := by simpa [Kind.isFloat] using h
    case f32 => exact .zeros be .f32 h1 h2 rfl
    case f64 => exact .zeros be .f64 h1 h2 rfl
    all_goals exact .zero _ h1 h2 (by simp [storedNum])
  | none =>
    rw [hk] at h
    cases dt with
    | float n b => simp at h
    | _ =>
      obtain rfl : _ = pat := by simpa using h
      exact .zero _ h1 h2 (by simp)

end Verif.H5
