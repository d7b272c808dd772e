import Verif.Props.H5ReadTyped
/-!
C41 and C42 for files with values of all types.
-/
namespace Verif.H5

/-- No attribute is a compound with one member, which is not read as it is (C55). -/
def NoLone (root : HGroup) : Prop :=
  ∀ names g, root.at? names = some g → (∀ p ∈ g.info.attrs.getD [], ¬ Lone p.2) ∧
    ∀ v ∈ g.info.vars, ∀ p ∈ v.attrs.getD [], ¬ Lone p.2

/-- Two files from which the same can be read, values of user-defined types too: under every absolute
path there is a group in both or in neither, the same things are listed (in some order), and the same
variables, dimension names and attributes are returned, whatever has been read before and whatever
order the reader takes for its maps of types. -/
def SameReadsT (f1 f2 : Bytes) : Prop :=
  ∃ o1 o2, OpensTo f1 o1 ∧ OpensTo f2 o2 ∧
    ∀ (inflate : Bytes → Res Bytes) (fuel1 fuel2 : Nat) (t1 t2 : List Nat → List NamedType → List NamedType),
      Iteration t1 → Iteration t2 → ∀ (r1 r2 : ReadCalls) (names : List Bytes)
      (path : Bytes), PathOf names path → path.head? = some 47 →
      ((rootGroup o1).getGroup path = .err .notFound ∧ (rootGroup o2).getGroup path = .err .notFound) ∨
      ∃ G1 G2 l1 l2, (rootGroup o1).getGroup path = .ok G1 ∧ (rootGroup o2).getGroup path = .ok G2 ∧
        G1.listVariables.Perm G2.listVariables ∧
        G1.listSubgroups = .ok l1 ∧ G2.listSubgroups = .ok l2 ∧ l1.Perm l2 ∧ G1.listTypes = G2.listTypes ∧
        G1.attributesT (G1.cast t1) ⟨inflate, fuel1, f1⟩ = G2.attributesT (G2.cast t2) ⟨inflate, fuel2, f2⟩ ∧
        ∀ n, (G1.getVariableT (G1.cast t1) ⟨inflate, fuel1, f1⟩ (readAllT ⟨inflate, fuel1, f1⟩ o1 t1 r1) n).2 =
          (G2.getVariableT (G2.cast t2) ⟨inflate, fuel2, f2⟩ (readAllT ⟨inflate, fuel2, f2⟩ o2 t2 r2) n).2

/-- C41. Two runs of the writer that iterate over its maps in different orders write files with the
same contents, when they have values of user-defined types too. Missing: files outside `FileStored`,
and attributes that are compounds with one member. -/
theorem C41_map_order_types_partial (u : UniTables) (cs : List HCall) (ord1 ord2 : Order) (h1 : OrderOK ord1)
    (h2 : OrderOK ord2) (hstored : FileStored (runCalls u cs)) (hlone : NoLone (runCalls u cs)) :
    ∃ f1 f2, closeFile false ord1 (runCalls u cs) = .ok f1 ∧ closeFile false ord2 (runCalls u cs) = .ok f2 ∧
      (f1.length < 2 ^ 63 → f2.length < 2 ^ 63 → SameReadsT f1 f2) := by
  obtain ⟨f1, c1, r1⟩ := C61_round_trip_partial u cs ord1 h1 hstored
  obtain ⟨f2, c2, r2⟩ := C61_round_trip_partial u cs ord2 h2 hstored
  refine ⟨f1, f2, c1, c2, fun l1 l2 => ?_⟩
  obtain ⟨o1, p1, -, r1⟩ := r1 l1
  obtain ⟨o2, p2, -, r2⟩ := r2 l2
  refine ⟨o1, o2, p1, p2, fun inflate fuel1 fuel2 t1 t2 i1 i2 b1 b2 names path hp habs => ?_⟩
  have q1 := r1 inflate fuel1 t1 i1 b1 names path hp habs
  have q2 := r2 inflate fuel2 t2 i2 b2 names path hp habs
  cases hat : (runCalls u cs).at? names with
  | none =>
    rw [hat] at q1 q2
    exact .inl ⟨q1, q2⟩
  | some g =>
    rw [hat] at q1 q2
    obtain ⟨G1, g1, q1⟩ := q1
    obtain ⟨G2, g2, q2⟩ := q2
    obtain ⟨l1, s1, t1⟩ := q1.subs
    obtain ⟨l2, s2, t2⟩ := q2.subs
    obtain ⟨ha, hv'⟩ := hlone names g hat
    refine .inr ⟨G1, G2, l1, l2, g1, g2, q1.vars.trans q2.vars.symm, s1, s2, t1.trans t2.symm,
      q1.types.trans q2.types.symm, (q1.attrs ha).trans (q2.attrs ha).symm, fun n => ?_⟩
    by_cases hn : n ∈ g.info.vars.map (·.name)
    · obtain ⟨v, hv, rfl⟩ := List.mem_map.1 hn
      rw [q1.var v hv (hv' v hv), q2.var v hv (hv' v hv)]
    · rw [q1.other n hn, q2.other n hn]

/-- C42. `Dimensions()` of a variable of any type returns the names that were given to `AddVar`.
Missing: as in `C42_dimension_names_partial`, for files outside `FileStored`; and variables with an
attribute that is a compound with one member. -/
theorem C42_dimension_names_types_partial (u : UniTables) (cs : List HCall) (ord : Order) (hord : OrderOK ord)
    (hstored : FileStored (runCalls u cs)) :
    ∃ file, closeFile false ord (runCalls u cs) = .ok file ∧ (file.length < 2 ^ 63 →
      ∃ o, OpensTo file o ∧
        ∀ (inflate : Bytes → Res Bytes) (fuel : Nat) (tord : List Nat → List NamedType → List NamedType),
          Iteration tord → ∀ (before : ReadCalls) (names : List Bytes)
          (path : Bytes), PathOf names path → path.head? = some 47 →
          ∀ g v, (runCalls u cs).at? names = some g → v ∈ g.info.vars → [] ∉ v.dims →
            (names = [] → v.name ∈ dimsOf (runCalls u cs) → v.dims = [v.name]) →
            (∀ p ∈ v.attrs.getD [], ¬ Lone p.2) →
            ∃ G r, (rootGroup o).getGroup path = .ok G ∧
              (G.getVariableT (G.cast tord) ⟨inflate, fuel, file⟩ (readAllT ⟨inflate, fuel, file⟩ o tord before) v.name).2 =
                .ok r ∧ r.dims = v.dims) := by
  obtain ⟨file, hc, h⟩ := C61_round_trip_partial u cs ord hord hstored
  refine ⟨file, hc, fun hl => ?_⟩
  obtain ⟨o, ho, -, hread⟩ := h hl
  refine ⟨o, ho, fun inflate fuel tord ht before names path hp habs g v hat hv hne hco hlone => ?_⟩
  have := hread inflate fuel tord ht before names path hp habs
  rw [hat] at this
  obtain ⟨G, hG, hR⟩ := this
  refine ⟨G, _, hG, hR.var v hv hlone, ?_⟩
  simp only [dimsRead]
  split
  · rename_i h
    exact (hco h.1 h.2).symm
  · rfl

theorem uf_noLone : NoLone (runCalls fiU ufCalls) := by
  rw [uf_run]
  intro names g hg
  have hm : ∀ p ∈ ufM.attrs.getD [], ¬ Lone p.2 := by
    intro p hp
    simp only [ufM, Option.getD_some, List.mem_singleton] at hp
    subst hp
    rintro ⟨n, x, h⟩
    cases h
  have ht : ∀ p ∈ ufRoot.info.attrs.getD [], ¬ Lone p.2 := by
    intro p hp
    simp only [ufRoot, HGroup.info, Option.getD_some, List.mem_singleton] at hp
    subst hp
    rintro ⟨n, x, h⟩
    cases h
  cases names with
  | nil =>
    cases hg
    refine ⟨ht, fun v hv p hp => ?_⟩
    rw [List.mem_singleton.1 hv] at hp
    cases hp
  | cons n ns =>
    rw [at_cons] at hg
    cases hf : ufRoot.subs.find? (·.name == n) with
    | none => rw [hf] at hg; cases hg
    | some s =>
      rw [hf, Option.bind_some] at hg
      have hs : s = ufG := List.mem_singleton.1 (List.mem_of_find?_eq_some hf)
      subst hs
      cases ns with
      | nil =>
        cases hg
        refine ⟨fun p hp => (by cases hp), fun v hv p hp => ?_⟩
        rw [List.mem_singleton.1 hv] at hp
        exact hm p hp
      | cons n ns => rw [at_cons] at hg; cases hg

-- compounds, an enumeration and sequences; two orders that differ
example : FileStored (runCalls fiU ufCalls) ∧ ¬ FileAllowed (runCalls fiU ufCalls) ∧ NoLone (runCalls fiU ufCalls) ∧
    OrderOK (fun _ vs => vs.reverse) ∧ OrderOK (fun _ vs => vs) ∧
    (runCalls fiU ufCalls).at? [ascii "g"] = some ufG ∧ ufM ∈ ufG.info.vars ∧ ufM.dims = [ascii "y"] := by
  refine ⟨uf_stored, fun h => ?_, uf_noLone, fun _ vs => vs.reverse_perm, fun _ _ => .rfl, by rw [uf_run]; rfl,
    by simp [ufG, HGroup.info], rfl⟩
  have := h.noUser
  rw [uf_run] at this
  cases this with
  | mk _ _ _ hv => exact (hv ufX (by simp)).1

end Verif.H5
