import Verif.Lemmas.H5Dims
import Verif.Props.H5File
/-!
C49: the dimensions of HDF5 files.
-/
namespace Verif.H5

/-- C49. In the root group of a written file `ListDimensions` lists exactly the names that were given as
dimensions, each once, and `GetDimension` of one on whose length all variables agree returns this
length; no other dimension is found. Subgroups list no dimensions. Missing: dimensions on whose length
the variables do not agree, which the writer accepts (`C49_negation_lengths`), dimensions with the name
of a variable of the root group that does not have it as its first (`C49_negation_scalar`), and files
outside `FileStored`. -/
theorem C49_dimensions_partial (u : UniTables) (cs : List HCall) (ord : Order) (hord : OrderOK ord)
    (hallowed : FileStored (runCalls u cs)) :
    ∃ file, closeFile false ord (runCalls u cs) = .ok file ∧ (file.length < 2 ^ 63 →
      ∃ o, OpensTo file o ∧ DimReads (runCalls u cs) (rootGroup o) ∧
        ∀ (names : List Bytes) (path : Bytes), PathOf names path → path.head? = some 47 → names ≠ [] →
          ∀ g, (runCalls u cs).at? names = some g →
            ∃ G, (rootGroup o).getGroup path = .ok G ∧ G.listDimensions = []) := by
  obtain ⟨file, hc, h⟩ := file_stored u cs ord hord hallowed
  refine ⟨file, hc, fun hl => ?_⟩
  obtain ⟨env, root', ds, o, ho, hctx⟩ := h hl
  have c := hctx (fun b => .ok b) 0
  refine ⟨o, ho, c.dimReads, fun names path hp habs hne g hat => ?_⟩
  have hgrp := c.group names
  rw [hat] at hgrp
  obtain ⟨o', g', h1, h2, h3, h4⟩ := hgrp
  refine ⟨{ root := o, obj := o', name := slash :: dirs names }, ?_, c.noDims hne hat h2 h4⟩
  rw [C39_absolute (rootGroup o) path names hp habs, lookup]
  simp only [rootGroup, h1]
  rfl

-- a coordinate variable `x`, and a dimension `y` without a variable that is used in two groups
example : FileAllowed (runCalls fiU fiCalls) ∧ (runCalls fiU fiCalls).Has fiM ∧ fiM.Along (ascii "y") 3 ∧
    DimAgreed (runCalls fiU fiCalls) (ascii "x") 2 ∧ DimAgreed (runCalls fiU fiCalls) (ascii "y") 3 := by
  have hall : ∀ v, fiRoot.Has v → v = fiX ∨ v = fiS ∨ v = fiM := by
    rintro v ⟨path, g, h1, h2⟩
    have key : ∀ (r : HGroup) (n : Bytes) (p : List Bytes), r.at? (n :: p) = some g →
        ∃ s ∈ r.subs, s.at? p = some g := by
      intro r n p h
      rw [at_cons] at h
      cases hs : r.subs.find? (·.name == n) with
      | none => rw [hs] at h; cases h
      | some s =>
        rw [hs, Option.bind_some] at h
        exact ⟨s, List.mem_of_find?_eq_some hs, h⟩
    cases path with
    | nil =>
      cases h1
      exact .inl (by simpa [fiRoot, HGroup.info] using h2)
    | cons n p =>
      obtain ⟨s, hs, h1⟩ := key _ _ _ h1
      simp only [fiRoot, HGroup.subs, List.mem_singleton] at hs
      subst hs
      cases p with
      | nil =>
        cases h1
        exact .inr (.inl (by simpa [fiG, HGroup.info] using h2))
      | cons n p =>
        obtain ⟨s, hs, h1⟩ := key _ _ _ h1
        simp only [fiG, HGroup.subs, List.mem_singleton] at hs
        subst hs
        cases p with
        | nil =>
          cases h1
          exact .inr (.inr (by simpa [fiH, HGroup.info] using h2))
        | cons n p =>
          obtain ⟨s, hs, -⟩ := key _ _ _ h1
          simp [fiH, HGroup.subs] at hs
  have hal : ∀ (d : Bytes) (n : Nat), (∀ v ∈ [fiX, fiS, fiM], ∀ i ∈ List.range 2, v.dims[i]? = some d →
      v.extents[i]? = some n) → ∀ v m, fiRoot.Has v → v.Along d m → m = n := by
    rintro d n h v m hv ⟨i, h1, h2⟩
    have hm : v ∈ [fiX, fiS, fiM] := by
      rcases hall v hv with rfl | rfl | rfl <;> simp
    have hi : i < 2 := by
      have h3 : i < v.dims.length := by
        rcases Nat.lt_or_ge i v.dims.length with h | h
        · exact h
        · rw [List.getElem?_eq_none h] at h1
          cases h1
      have h4 : ∀ v ∈ [fiX, fiS, fiM], v.dims.length ≤ 2 := by decide
      have := h4 v hm
      omega
    have := h v hm i (List.mem_range.2 hi) h1
    rw [h2] at this
    exact Option.some.inj this
  refine ⟨fi_allowed, ?_⟩
  rw [fi_run]
  refine ⟨⟨[ascii "g", ascii "h"], fiH, rfl, by simp [fiH, HGroup.info]⟩, ⟨1, by decide, by decide⟩,
    ⟨hal _ _ (by decide), ?_⟩, ⟨hal _ _ (by decide), ?_⟩⟩
  · intro v hv _
    simp only [fiRoot, HGroup.info, List.mem_singleton] at hv
    subst hv
    rfl
  · intro v hv hn
    simp only [fiRoot, HGroup.info, List.mem_singleton] at hv
    subst hv
    exact absurd hn (by decide)

/-! ### Negations -/

/-- A scalar `x`, and variables with dimensions `x`, `h` and `h`. -/
def diCalls : List HCall :=
  [.addVar [] (ascii "x") (.num .i8 9) [] none,
   .addVar [] (ascii "s") (.slice (.num .i8) [.num .i8 1, .num .i8 2]) [ascii "x"] none,
   .addVar [] (ascii "g") (.slice (.num .i8) [.num .i8 1, .num .i8 2]) [ascii "h"] none,
   .addVar [] (ascii "m") (.slice (.num .i8) [.num .i8 1, .num .i8 2, .num .i8 3]) [ascii "h"] none]

def diRoot : HGroup := .mk { name := ascii "/", attrs := some [], vars :=
  [⟨ascii "x", .num .i8 9, [], none, false⟩,
   ⟨ascii "s", .slice (.num .i8) [.num .i8 1, .num .i8 2], [ascii "x"], none, false⟩,
   ⟨ascii "g", .slice (.num .i8) [.num .i8 1, .num .i8 2], [ascii "h"], none, false⟩,
   ⟨ascii "m", .slice (.num .i8) [.num .i8 1, .num .i8 2, .num .i8 3], [ascii "h"], none, false⟩] } []

theorem di_run : runCalls fiU diCalls = diRoot := by
  obtain ⟨hx, hg, hs, hh, hm, h0, h1, h2, h3⟩ := fi_valid
  simp only [runCalls, diCalls, List.foldl_cons, List.foldl_nil]
  rw [fi_add _ _ _ _ _ _ _ hx h0 rfl rfl, fi_add _ _ _ _ _ _ _ hs h0 rfl rfl, fi_add _ _ _ _ _ _ _ hg h0 rfl rfl,
    fi_add _ _ _ _ _ _ _ hm h0 rfl rfl]
  rfl

/-- Writing, opening, and asking. -/
def diCase : Bool :=
  match closeFile false (fun _ vs => vs) diRoot with
  | .ok file =>
    match openN 10 file with
    | .ok o => decide (ascii "x" ∈ (rootGroup o).listDimensions) &&
        decide ((rootGroup o).getDimension (ascii "x") = .panic) &&
        decide ((rootGroup o).getDimension (ascii "h") = .ok (some 2))
    | _ => false
  | _ => false

theorem di_case : ∃ file o, closeFile false (fun _ vs => vs) (runCalls fiU diCalls) = .ok file ∧ OpensTo file o ∧
    ascii "x" ∈ (rootGroup o).listDimensions ∧ (rootGroup o).getDimension (ascii "x") = .panic ∧
    (rootGroup o).getDimension (ascii "h") = .ok (some 2) := by
  have h : diCase = true := by decide +kernel
  rw [di_run]
  unfold diCase at h
  split at h
  · split at h
    · rename_i file hc _ o ho
      simp only [Bool.and_eq_true, decide_eq_true_eq] at h
      exact ⟨file, o, hc, ⟨10, ho⟩, h.1.1, h.1.2, h.2⟩
    · cases h
  · cases h

/-- C49 fails for a dimension with the name of a scalar variable: it is listed, and `GetDimension`
panics. -/
theorem C49_negation_scalar : ∃ (u : UniTables) (cs : List HCall) (ord : Order) (file : Bytes) (o : Obj) (d : Bytes),
    OrderOK ord ∧ closeFile false ord (runCalls u cs) = .ok file ∧ OpensTo file o ∧
      d ∈ (rootGroup o).listDimensions ∧ (rootGroup o).getDimension d = .panic := by
  obtain ⟨file, o, h1, h2, h3, h4, -⟩ := di_case
  exact ⟨fiU, diCalls, _, file, o, ascii "x", fun _ _ => .rfl, h1, h2, h3, h4⟩

/-- C49 fails when variables do not agree: the writer accepts two lengths for one dimension, and
`GetDimension` returns one that another variable does not have. -/
theorem C49_negation_lengths : ∃ (u : UniTables) (cs : List HCall) (ord : Order) (file : Bytes) (o : Obj) (d : Bytes)
    (v : HVar) (n m : Nat), OrderOK ord ∧ closeFile false ord (runCalls u cs) = .ok file ∧ OpensTo file o ∧
      (runCalls u cs).Has v ∧ v.Along d n ∧ n ≠ m ∧ (rootGroup o).getDimension d = .ok (some m) := by
  obtain ⟨file, o, h1, h2, -, -, h5⟩ := di_case
  refine ⟨fiU, diCalls, _, file, o, ascii "h",
    ⟨ascii "m", .slice (.num .i8) [.num .i8 1, .num .i8 2, .num .i8 3], [ascii "h"], none, false⟩, 3, 2,
    fun _ _ => .rfl, h1, h2, ?_, ⟨0, by decide, by decide⟩, by decide, h5⟩
  rw [di_run]
  exact ⟨[], diRoot, rfl, by simp [diRoot, HGroup.info]⟩

end Verif.H5
