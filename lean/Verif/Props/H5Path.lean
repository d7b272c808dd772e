import Verif.Lemmas.H5Path
/-!
C39: looking up groups by path.
-/
namespace Verif.H5

/-- What `GetGroup` should give: the group that is reached, or that there is none. -/
def lookup (h : Group) (start : Obj) (name : Bytes) (names : List Bytes) : Res Group :=
  match follow start names with
  | some o => .ok { root := h.root, obj := o, name := name ++ names.flatMap (· ++ [47]) }
  | none => .err .notFound

/-- C39, paths that begin with a slash: the names in the path are followed from the root, however
many slashes there are between and behind them. -/
theorem C39_absolute (h : Group) (path : Bytes) (names : List Bytes) (hp : PathOf names path)
    (habs : path.head? = some 47) : h.getGroup path = lookup h h.root [47] names := by
  have hcan : canonicalizePath path = [slash] ++ joinSlash names := by
    rw [canonicalizePath, if_pos habs, hp.split]
  have hname : (if canonicalizePath path ≠ [slash] then canonicalizePath path ++ [slash] else [slash]) =
      [slash] ++ dirs names := by
    rw [hcan]
    cases names with
    | nil => simp [joinSlash, dirs]
    | cons n ns =>
      have hn := (hp.names n List.mem_cons_self).1
      rw [if_pos, List.append_assoc, joinSlash_dirs (by simp)]
      cases n with
      | nil => exact absurd rfl hn
      | cons c cs => cases ns <;> simp [joinSlash]
  have hh : (canonicalizePath path).head? = some slash := by rw [hcan]; rfl
  simp only [Group.getGroup, hh, ↓reduceIte, hname]
  rw [sgDescend_follow names h.root [slash] _ hp.names (by
    have := dirs_length (names := names)
    simp only [List.length_append]
    omega)]
  unfold lookup
  cases follow h.root names <;> rfl

/-- C39, paths that do not begin with a slash and are not empty: the names are followed from the
group. Missing: the empty path, which is not found (`C39_negation_empty`). -/
theorem C39_relative_partial (h : Group) (path : Bytes) (names : List Bytes) (hp : PathOf names path)
    (hrel : path.head? ≠ some 47) (hne : path ≠ []) : h.getGroup path = lookup h h.obj h.name names := by
  have hcan : canonicalizePath path = joinSlash names := by
    rw [canonicalizePath, if_neg hrel, hp.split, List.nil_append]
  have hnn : names ≠ [] := by
    rintro rfl
    cases hp with
    | nil n =>
      cases n with
      | zero => exact hne rfl
      | succ n => exact hrel (by simp [List.replicate_succ])
  have hh : (canonicalizePath path).head? ≠ some slash := by
    rw [hcan]
    cases names with
    | nil => exact absurd rfl hnn
    | cons n ns =>
      obtain ⟨h1, h2⟩ := hp.names n List.mem_cons_self
      cases n with
      | nil => exact absurd rfl h1
      | cons c cs =>
        simp only [List.mem_cons, not_or] at h2
        have : c ≠ slash := fun e => h2.1 e.symm
        cases ns <;> simp [joinSlash, this]
  simp only [Group.getGroup, hh, ↓reduceIte]
  rw [hcan, List.append_assoc, joinSlash_dirs hnn]
  rw [sgDescend_follow names h.obj h.name _ hp.names (by
    have := dirs_length (names := names)
    simp only [List.length_append]
    omega)]
  unfold lookup
  cases follow h.obj names <;> rfl

/-- Every string is the path of some names, so the two theorems above leave out nothing but the
empty path. -/
theorem C39_every_path (path : Bytes) : ∃ names, PathOf names path := exists_pathOf path

/-- C39, repeated and trailing slashes do not matter: two paths with the same names that both begin
with a slash, or both do not, give the same result. -/
theorem C39_slashes_do_not_matter (h : Group) (path path' : Bytes) (names : List Bytes) (hp : PathOf names path)
    (hp' : PathOf names path') (habs : path.head? = some 47 ↔ path'.head? = some 47) :
    h.getGroup path = h.getGroup path' := by
  by_cases ha : path.head? = some 47
  · rw [C39_absolute h path names hp ha, C39_absolute h path' names hp' (habs.mp ha)]
  · have ha' := fun x => ha (habs.mpr x)
    have hempty : ∀ q, PathOf names q → q.head? ≠ some 47 → names = [] → q = [] := by
      intro q hq hh hn
      subst hn
      cases hq with
      | nil n => cases n with
        | zero => rfl
        | succ n => exact absurd (by simp [List.replicate_succ]) hh
    by_cases hn : names = []
    · rw [hempty path hp ha hn, hempty path' hp' ha' hn]
    · have hne : ∀ q, PathOf names q → q ≠ [] := by
        intro q hq hq0
        have := hq.split
        rw [hq0] at this
        exact hn (by rw [← this]; simp [splitSlash])
      rw [C39_relative_partial h path names hp ha (hne path hp), C39_relative_partial h path' names hp' ha' (hne path' hp')]

/-- A file with the groups `/a` and `/a/b` and the variable `/v`. -/
def pathEx : Obj := .mk { isGroup := true } [
  .mk { name := [97], isGroup := true } [.mk { name := [98], isGroup := true, creationOrder := 7 } []],
  .mk { name := [118] } []]

/-- C39 fails for the empty path: there are no components to follow, but the group is not found. -/
theorem C39_negation_empty : ∃ (h : Group) (o : Obj), PathOf [] [] ∧ follow h.obj [] = some o ∧
    (h.getGroup []).isErr = true :=
  ⟨⟨pathEx, pathEx, [47]⟩, pathEx, .nil 0, rfl, by decide +kernel⟩

/-- The path `//a///b/` has the names `a` and `b`; the group has creation order 7. -/
example : PathOf [[97], [98]] [47, 47, 97, 47, 47, 47, 98, 47] ∧
    ((Group.mk pathEx pathEx [47]).getGroup [47, 47, 97, 47, 47, 47, 98, 47]).map (fun g => (g.obj.info.creationOrder, g.name)) =
      .ok (7, [47, 97, 47, 98, 47]) ∧
    ((Group.mk pathEx pathEx [47]).getGroup [118]).isErr = true := by
  refine ⟨?_, by decide +kernel, by decide +kernel⟩
  exact .cons 2 [97] _ [47, 47, 47, 98, 47] (by simp) (by decide) (.inr rfl)
    (.cons 3 [98] _ [47] (by simp) (by decide) (.inr rfl) (.nil 1))

end Verif.H5
