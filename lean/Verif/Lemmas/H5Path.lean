import Verif.Model.H5Group
import Verif.Spec.H5Path
/-!
Lemmas on paths.
-/
namespace Verif.H5

theorem splitSlash_ne (s : Bytes) : splitSlash s ≠ [] := by
  cases s with
  | nil => simp [splitSlash]
  | cons c cs =>
    simp only [splitSlash]
    split
    · simp
    · split <;> simp

/-- Splitting at the first slash. -/
theorem splitSlash_name {name rest : Bytes} (h : 47 ∉ name) :
    splitSlash (name ++ slash :: rest) = name :: splitSlash rest := by
  induction name with
  | nil => simp [splitSlash]
  | cons c cs ih =>
    simp only [List.mem_cons, not_or] at h
    have hc : c ≠ slash := fun e => h.1 e.symm
    simp only [List.cons_append, splitSlash, if_neg hc, ih h.2]

theorem splitSlash_last {name : Bytes} (h : 47 ∉ name) : splitSlash name = [name] := by
  induction name with
  | nil => simp [splitSlash]
  | cons c cs ih =>
    simp only [List.mem_cons, not_or] at h
    have hc : c ≠ slash := fun e => h.1 e.symm
    simp only [splitSlash, if_neg hc, ih h.2]

theorem splitSlash_slashes (n : Nat) (s : Bytes) :
    (splitSlash (List.replicate n slash ++ s)).filter (· ≠ []) = (splitSlash s).filter (· ≠ []) := by
  induction n with
  | zero => simp
  | succ n ih =>
    rw [List.replicate_succ, List.cons_append, splitSlash, if_pos rfl, List.filter_cons_of_neg (by simp), ih]

/-- The components of a path. -/
theorem PathOf.split {names : List Bytes} {path : Bytes} (h : PathOf names path) :
    (splitSlash path).filter (· ≠ []) = names := by
  induction h with
  | nil n =>
    have := splitSlash_slashes n []
    rw [List.append_nil] at this
    rw [this]
    simp [splitSlash]
  | cons n name names rest hne hns hrest _ ih =>
    rw [List.append_assoc, splitSlash_slashes]
    cases rest with
    | nil =>
      rw [List.append_nil, splitSlash_last hns, List.filter_cons_of_pos (by simpa using hne)]
      simpa [splitSlash] using ih
    | cons r rs =>
      have hr : r = slash := by simpa using hrest
      subst hr
      rw [splitSlash_name hns, List.filter_cons_of_pos (by simpa using hne)]
      rw [splitSlash, if_pos rfl, List.filter_cons_of_neg (by simp)] at ih
      rw [ih]

theorem PathOf.names {names : List Bytes} {path : Bytes} (h : PathOf names path) :
    ∀ x ∈ names, x ≠ [] ∧ 47 ∉ x := by
  induction h with
  | nil n => simp
  | cons n name names rest hne hns _ _ ih =>
    intro x hx
    rcases List.mem_cons.mp hx with rfl | hx
    · exact ⟨hne, hns⟩
    · exact ih x hx

/-- Every string is a path. -/
theorem exists_pathOf (path : Bytes) : ∃ names, PathOf names path := by
  induction path with
  | nil => exact ⟨[], .nil 0⟩
  | cons c cs ih =>
    obtain ⟨names, h⟩ := ih
    by_cases hc : c = slash
    · subst hc
      cases h with
      | nil n => exact ⟨[], by rw [← List.replicate_succ]; exact .nil (n + 1)⟩
      | cons n name names rest h1 h2 h3 h4 =>
        refine ⟨name :: names, ?_⟩
        have := PathOf.cons (n + 1) name names rest h1 h2 h3 h4
        rwa [List.replicate_succ, List.cons_append, List.cons_append] at this
    · have hc' : (47 : UInt8) ≠ c := fun e => hc e.symm
      cases h with
      | nil n =>
        refine ⟨[[c]], ?_⟩
        have := PathOf.cons 0 [c] [] (List.replicate n 47) (by simp) (by simpa using hc') (by cases n <;> simp [List.replicate_succ])
          (.nil n)
        simpa using this
      | cons n name names rest h1 h2 h3 h4 =>
        cases n with
        | zero =>
          refine ⟨(c :: name) :: names, ?_⟩
          have := PathOf.cons 0 (c :: name) names rest (by simp) (by simp [hc', h2]) h3 h4
          simpa using this
        | succ n =>
          refine ⟨[c] :: name :: names, ?_⟩
          have := PathOf.cons 0 [c] (name :: names) _ (by simp) (by simpa using hc') (.inr (by simp [List.replicate_succ]))
            (PathOf.cons (n + 1) name names rest h1 h2 h3 h4)
          simpa using this

/-- The names, each followed by a slash. -/
def dirs (names : List Bytes) : Bytes := names.flatMap (· ++ [slash])

theorem joinSlash_dirs {names : List Bytes} (h : names ≠ []) : joinSlash names ++ [slash] = dirs names := by
  induction names with
  | nil => exact absurd rfl h
  | cons p ps ih =>
    cases ps with
    | nil => simp [joinSlash, dirs]
    | cons q qs =>
      have := ih (by simp)
      rw [joinSlash, List.append_assoc, List.cons_append, this]
      simp [dirs]

theorem dirs_length {names : List Bytes} : names.length ≤ (dirs names).length := by
  induction names with
  | nil => simp [dirs]
  | cons p ps ih =>
    simp only [dirs, List.flatMap_cons, List.length_append, List.length_cons, List.length_nil] at *
    omega

theorem dirs_ne {p : Bytes} {ps : List Bytes} : dirs (p :: ps) ≠ [] := by simp [dirs]

/-- Descending by the rest of the path. -/
theorem sgDescend_follow : ∀ (names : List Bytes) (o : Obj) (pre : Bytes) (fuel : Nat), (∀ x ∈ names, x ≠ [] ∧ 47 ∉ x) →
    names.length < fuel → sgDescend (pre ++ dirs names) fuel o pre = .ok (follow o names) := by
  intro names
  induction names with
  | nil =>
    intro o pre fuel _ hf
    cases fuel with
    | zero => omega
    | succ fuel =>
      simp only [sgDescend, dirs, List.flatMap_nil, List.append_nil, follow, ↓reduceIte]
      cases o.info.isGroup <;> simp
  | cons p ps ih =>
    intro o pre fuel hn hf
    cases fuel with
    | zero => omega
    | succ fuel =>
      have hp := hn p List.mem_cons_self
      simp only [sgDescend, follow]
      cases hg : o.info.isGroup with
      | false => simp
      | true =>
        rw [if_neg (by simp), if_neg (by simp [dirs_ne]), if_neg (by simp), List.drop_left]
        have hd : dirs (p :: ps) = p ++ slash :: dirs ps := by simp [dirs]
        rw [hd, splitSlash_name hp.2, List.headD_cons, Obj.child]
        cases hc : o.kids.find? (fun k => k.info.name == p) with
        | none => simp
        | some c =>
          have hname : c.info.name = p := by simpa using List.find?_some hc
          simp only [↓reduceIte, hname]
          have := ih c (pre ++ p ++ [slash]) fuel (fun x hx => hn x (List.mem_cons_of_mem _ hx)) (by simpa using hf)
          rw [← this]
          simp [List.append_assoc]

end Verif.H5
