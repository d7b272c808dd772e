import Verif.Lemmas.H5ApiFile
/-!
C38, C41, C42: HDF5 files that were written, as a whole.
-/
namespace Verif.H5

/-! ### C38 -/

/-- C38. After any history of calls on a new writer that leaves groups, variables and attributes
which HDF5 files can hold (`FileAllowed`), and whatever the order of the maps, `Close` writes a
file. Unless it has 2^63 bytes or more, the file opens, and it opens in one way only. `GetGroup`
finds every group that was created and no other. In each of them `ListVariables` and
`ListSubgroups` list what was added, `Attributes` returns the attributes, and `GetVariable` returns
every variable with its value, its attributes and its dimension names, and nothing else, whatever
variables have been read before. Missing: files outside `FileAllowed` (there are some that `Close`
writes and that cannot be read back; see DESIGN.md), compound, opaque and enumeration values, and
the two cases of dimension names that are lost (`C42_negation_…`). -/
theorem C38_round_trip_partial (u : UniTables) (cs : List HCall) (ord : Order) (hord : OrderOK ord)
    (hallowed : FileAllowed (runCalls u cs)) :
    ∃ file, closeFile false ord (runCalls u cs) = .ok file ∧ (file.length < 2 ^ 63 →
      ∃ o, OpensTo file o ∧ (∀ o', OpensTo file o' → o' = o) ∧
        ∀ (inflate : Bytes → Res Bytes) (fuel : Nat) (before : ReadCalls) (names : List Bytes)
          (path : Bytes), PathOf names path → path.head? = some 47 →
          match (runCalls u cs).at? names with
          | none => (rootGroup o).getGroup path = .err .notFound
          | some g => ∃ G, (rootGroup o).getGroup path = .ok G ∧
              GroupReads ⟨inflate, fuel, file⟩ (runCalls u cs) names g G
                (readAll ⟨inflate, fuel, file⟩ o before)) := by
  obtain ⟨file, hc, h⟩ := file_reads u cs ord hord hallowed
  refine ⟨file, hc, fun hl => ?_⟩
  obtain ⟨env, root', ds, o, ho, hctx⟩ := h hl
  exact ⟨o, ho, fun o' h' => h'.unique ho, fun inflate fuel before names path hp habs =>
    (hctx inflate fuel).reads names path hp habs before⟩

theorem given_attrPairs {attrs : Attrs} {as : HAttrs} (h : attrPairs attrs = .ok as) : Given attrs (as.getD []) := by
  cases attrs with
  | none =>
    simp only [attrPairs, Res.ok.injEq] at h
    subst h
    rfl
  | some om =>
    simp only [attrPairs] at h
    split at h
    · rename_i hall
      simp only [Res.ok.injEq] at h
      subst h
      simp only [Option.getD_some, Given]
      generalize om.visibleKeys = ks at *
      constructor
      · induction ks with
        | nil => rfl
        | cons k ks ih =>
          rw [List.all_cons, Bool.and_eq_true] at hall
          cases hk : om.get k with
          | none => rw [hk] at hall; cases hall.1
          | some v => simp [hk, ih hall.2]
      · intro p hp
        obtain ⟨k, _, hk⟩ := List.mem_filterMap.1 hp
        cases hv : om.get k with
        | none => rw [hv] at hk; cases hk
        | some v =>
          rw [hv] at hk
          cases hk
          exact hv
    · cases h

/-- C38, in terms of the calls: the value, the attributes and the dimension names of an `AddVar`
that succeeded and whose variable was not added again are read back. -/
theorem C38_added_variable_partial (u : UniTables) (cs later : List HCall) (ord : Order) (hord : OrderOK ord)
    (names : List Bytes) (name : Bytes) (val : GoVal) (dims : List Bytes) (attrs : Attrs) (root' : HGroup)
    (g : HGroup) (hg : (runCalls u cs).at? names = some g)
    (hadd : addVarH u (runCalls u cs) names name val dims attrs = .ok root')
    (hlater : ∀ c ∈ later, ∀ v d a, c ≠ .addVar names name v d a)
    (hallowed : FileAllowed (runCalls u (cs ++ .addVar names name val dims attrs :: later))) :
    ∃ file as, closeFile false ord (runCalls u (cs ++ .addVar names name val dims attrs :: later)) = .ok file ∧
      Given attrs as ∧ (file.length < 2 ^ 63 → ∃ o, OpensTo file o ∧
        ∀ (inflate : Bytes → Res Bytes) (fuel : Nat) (before : ReadCalls)
          (path : Bytes), PathOf names path → path.head? = some 47 →
          ∃ G, (rootGroup o).getGroup path = .ok G ∧ name ∈ G.listVariables ∧
            (G.getVariable ⟨inflate, fuel, file⟩ (readAll ⟨inflate, fuel, file⟩ o before) name).2 =
              .ok ⟨val, dimsRead (runCalls u (cs ++ .addVar names name val dims attrs :: later)) names
                ⟨name, val, dims, some as, false⟩, as.map fun p => (p.1, oneOf p.2)⟩) := by
  obtain ⟨file, hc, h⟩ := C38_round_trip_partial u _ ord hord hallowed
  obtain ⟨as, has, hr⟩ := addVarH_ok hadd
  refine ⟨file, as.getD [], hc, given_attrPairs has, fun hl => ?_⟩
  obtain ⟨o, ho, -, hread⟩ := h hl
  refine ⟨o, ho, fun inflate fuel before path hp habs => ?_⟩
  have hvar : (runCalls u (cs ++ .addVar names name val dims attrs :: later)).var? names name =
      some ⟨name, val, dims, as, false⟩ := by
    rw [runCalls, List.foldl_append, List.foldl_cons]
    refine var_runs u _ names name _ later hlater ?_
    have : HCall.run u (cs.foldl (HCall.run u) newRoot) (.addVar names name val dims attrs) = root' := by
      have hadd' : addVarH u (cs.foldl (HCall.run u) newRoot) names name val dims attrs = .ok root' := hadd
      simp only [HCall.run, hadd']
    rw [this, hr, HGroup.var?, at_modify _ (fun g => by cases g; rfl), hg]
    simp only [Option.map_some, Option.bind_some, HGroup.info]
    rw [setVar_find, if_pos rfl]
  have := hread inflate fuel before names path hp habs
  unfold HGroup.var? at hvar
  cases hat : (runCalls u (cs ++ .addVar names name val dims attrs :: later)).at? names with
  | none => rw [hat] at hvar; cases hvar
  | some g' =>
    rw [hat] at hvar this
    obtain ⟨G, hG, hR⟩ := this
    rw [Option.bind_some] at hvar
    have hmem := List.mem_of_find?_eq_some hvar
    exact ⟨G, hG, hR.vars.mem_iff.2 (List.mem_map.2 ⟨_, hmem, rfl⟩), hR.var _ hmem⟩

/-- C38, in terms of the calls: the attributes of an `AddAttributes` that succeeded are those of the
group, if none were set later. -/
theorem C38_added_attributes_partial (u : UniTables) (cs later : List HCall) (ord : Order) (hord : OrderOK ord)
    (names : List Bytes) (attrs : Attrs) (root' : HGroup)
    (g : HGroup) (hg : (runCalls u cs).at? names = some g)
    (hadd : addAttributesH u (runCalls u cs) names attrs = .ok root')
    (hlater : ∀ c ∈ later, ∀ a, c ≠ .addAttributes names a)
    (hallowed : FileAllowed (runCalls u (cs ++ .addAttributes names attrs :: later))) :
    ∃ file as, closeFile false ord (runCalls u (cs ++ .addAttributes names attrs :: later)) = .ok file ∧
      Given attrs as ∧ (file.length < 2 ^ 63 → ∃ o, OpensTo file o ∧
        ∀ (inflate : Bytes → Res Bytes) (fuel : Nat) (path : Bytes), PathOf names path → path.head? = some 47 →
          ∃ G, (rootGroup o).getGroup path = .ok G ∧
            G.attributes ⟨inflate, fuel, file⟩ = .ok (as.map fun p => (p.1, oneOf p.2))) := by
  obtain ⟨file, hc, h⟩ := C38_round_trip_partial u _ ord hord hallowed
  obtain ⟨as, has, hr⟩ : ∃ as, attrPairs attrs = .ok as ∧
      root' = (runCalls u cs).modify (fun g => .mk { g.info with attrs := as } g.subs) names := by
    unfold addAttributesH at hadd
    split at hadd
    · cases hadd
    split at hadd
    · cases hadd
    · cases hadd
    · rename_i as has
      exact ⟨as, has, (Res.ok.inj hadd).symm⟩
  refine ⟨file, as.getD [], hc, given_attrPairs has, fun hl => ?_⟩
  obtain ⟨o, ho, -, hread⟩ := h hl
  refine ⟨o, ho, fun inflate fuel path hp habs => ?_⟩
  have hat : ((runCalls u (cs ++ .addAttributes names attrs :: later)).at? names).map (·.info.attrs) = some as := by
    rw [runCalls, List.foldl_append, List.foldl_cons]
    refine attrs_runs u _ names as later hlater ?_
    have : HCall.run u (cs.foldl (HCall.run u) newRoot) (.addAttributes names attrs) = root' := by
      have hadd' : addAttributesH u (cs.foldl (HCall.run u) newRoot) names attrs = .ok root' := hadd
      simp only [HCall.run, hadd']
    rw [this, hr, at_modify _ (fun g => by cases g; rfl), hg]
    rfl
  have := hread inflate fuel [] names path hp habs
  cases hx : (runCalls u (cs ++ .addAttributes names attrs :: later)).at? names with
  | none => rw [hx] at hat; cases hat
  | some x =>
    rw [hx] at hat this
    obtain ⟨G, hG, hR⟩ := this
    refine ⟨G, hG, ?_⟩
    rw [hR.attrs, ← Option.some.inj hat]
    rfl

/-! ### C41 -/

/-- Two files that cannot be told apart by reading: the same groups are found, and in each of them
the same things are listed (in some order) and the same variables, dimension names and attributes
are returned, whatever has been read before. -/
def SameReads (f1 f2 : Bytes) : Prop :=
  ∃ o1 o2, OpensTo f1 o1 ∧ OpensTo f2 o2 ∧
    ∀ (inflate : Bytes → Res Bytes) (fuel1 fuel2 : Nat) (r1 r2 : ReadCalls) (names : List Bytes)
      (path : Bytes), PathOf names path → path.head? = some 47 →
      ((rootGroup o1).getGroup path = .err .notFound ∧ (rootGroup o2).getGroup path = .err .notFound) ∨
      ∃ G1 G2 l1 l2, (rootGroup o1).getGroup path = .ok G1 ∧ (rootGroup o2).getGroup path = .ok G2 ∧
        G1.listVariables.Perm G2.listVariables ∧
        G1.listSubgroups = .ok l1 ∧ G2.listSubgroups = .ok l2 ∧ l1.Perm l2 ∧
        G1.attributes ⟨inflate, fuel1, f1⟩ = G2.attributes ⟨inflate, fuel2, f2⟩ ∧
        ∀ n, (G1.getVariable ⟨inflate, fuel1, f1⟩ (readAll ⟨inflate, fuel1, f1⟩ o1 r1) n).2 =
          (G2.getVariable ⟨inflate, fuel2, f2⟩ (readAll ⟨inflate, fuel2, f2⟩ o2 r2) n).2

/-- C41. Two runs of the writer that iterate over its maps in different orders write files with the
same contents. Missing: files outside `FileAllowed`. -/
theorem C41_map_order_partial (u : UniTables) (cs : List HCall) (ord1 ord2 : Order) (h1 : OrderOK ord1)
    (h2 : OrderOK ord2) (hallowed : FileAllowed (runCalls u cs)) :
    ∃ f1 f2, closeFile false ord1 (runCalls u cs) = .ok f1 ∧ closeFile false ord2 (runCalls u cs) = .ok f2 ∧
      (f1.length < 2 ^ 63 → f2.length < 2 ^ 63 → SameReads f1 f2) := by
  obtain ⟨f1, c1, r1⟩ := C38_round_trip_partial u cs ord1 h1 hallowed
  obtain ⟨f2, c2, r2⟩ := C38_round_trip_partial u cs ord2 h2 hallowed
  refine ⟨f1, f2, c1, c2, fun l1 l2 => ?_⟩
  obtain ⟨o1, p1, -, r1⟩ := r1 l1
  obtain ⟨o2, p2, -, r2⟩ := r2 l2
  refine ⟨o1, o2, p1, p2, fun inflate fuel1 fuel2 b1 b2 names path hp habs => ?_⟩
  have q1 := r1 inflate fuel1 b1 names path hp habs
  have q2 := r2 inflate fuel2 b2 names path hp habs
  cases hat : (runCalls u cs).at? names with
  | none =>
    rw [hat] at q1 q2
    exact .inl ⟨q1, q2⟩
  | some g =>
    rw [hat] at q1 q2
    obtain ⟨G1, g1, q1⟩ := q1
    obtain ⟨G2, g2, q2⟩ := q2
    obtain ⟨l1, s1, t1⟩ := q1.subs
    obtain ⟨l2, s2, t2⟩ := q2.subs
    refine .inr ⟨G1, G2, l1, l2, g1, g2, q1.vars.trans q2.vars.symm, s1, s2, t1.trans t2.symm,
      q1.attrs.trans q2.attrs.symm, fun n => ?_⟩
    by_cases hn : n ∈ g.info.vars.map (·.name)
    · obtain ⟨v, hv, rfl⟩ := List.mem_map.1 hn
      rw [q1.var v hv, q2.var v hv]
    · rw [q1.other n hn, q2.other n hn]

/-! ### C42 -/

/-- C42. `Dimensions()` of a variable returns the names that were given to `AddVar`. Missing: a
variable with an empty dimension name, which loses all of them (`C42_negation_empty_name`), and a
variable of the root group that has the name of a dimension but not just this dimension
(`C42_negation_coordinate`); and files outside `FileAllowed`. -/
theorem C42_dimension_names_partial (u : UniTables) (cs : List HCall) (ord : Order) (hord : OrderOK ord)
    (hallowed : FileAllowed (runCalls u cs)) :
    ∃ file, closeFile false ord (runCalls u cs) = .ok file ∧ (file.length < 2 ^ 63 →
      ∃ o, OpensTo file o ∧
        ∀ (inflate : Bytes → Res Bytes) (fuel : Nat) (before : ReadCalls) (names : List Bytes)
          (path : Bytes), PathOf names path → path.head? = some 47 →
          ∀ g v, (runCalls u cs).at? names = some g → v ∈ g.info.vars → [] ∉ v.dims →
            (names = [] → v.name ∈ dimsOf (runCalls u cs) → v.dims = [v.name]) →
            ∃ G r, (rootGroup o).getGroup path = .ok G ∧
              (G.getVariable ⟨inflate, fuel, file⟩ (readAll ⟨inflate, fuel, file⟩ o before) v.name).2 = .ok r ∧
              r.dims = v.dims) := by
  obtain ⟨file, hc, h⟩ := C38_round_trip_partial u cs ord hord hallowed
  refine ⟨file, hc, fun hl => ?_⟩
  obtain ⟨o, ho, -, hread⟩ := h hl
  refine ⟨o, ho, fun inflate fuel before names path hp habs g v hat hv hne hco => ?_⟩
  have := hread inflate fuel before names path hp habs
  rw [hat] at this
  obtain ⟨G, hG, hR⟩ := this
  refine ⟨G, _, hG, hR.var v hv, ?_⟩
  simp only [dimsRead]
  split
  · rename_i h
    exact (hco h.1 h.2).symm
  · rfl

/-! ### Examples -/

/-- ASCII only. -/
def fiU : UniTables := ⟨fun _ => false, fun _ => false, fun _ => false, fun _ => false⟩

def fiAttrs (k : String) (v : GoVal) : Attrs := some (OMap.empty.add (ascii k) v)

/-- `x` is a coordinate variable, `y` is a dimension without a variable. -/
def fiCalls : List HCall :=
  [.addAttributes [] (fiAttrs "title" (.str (ascii "test"))),
   .addVar [] (ascii "x") (.slice (.num .i16) [.num .i16 1, .num .i16 2]) [ascii "x"]
     (fiAttrs "units" (.str (ascii "m"))),
   .createGroup [] (ascii "g"),
   .addVar [ascii "g"] (ascii "s") (.slice .str [.str (ascii "a"), .str (ascii "bc"), .str []]) [ascii "y"] none,
   .createGroup [ascii "g"] (ascii "h"),
   .addVar [ascii "g", ascii "h"] (ascii "m")
     (.slice (.slice (.num .f64)) [.slice (.num .f64) [.num .f64 1, .num .f64 2, .num .f64 3],
       .slice (.num .f64) [.num .f64 4, .num .f64 5, .num .f64 6]]) [ascii "x", ascii "y"]
     (fiAttrs "list" (.slice .str [.str (ascii "p"), .str (ascii "q")]))]

/-- The groups after these calls. -/
def fiX : HVar :=
  ⟨ascii "x", .slice (.num .i16) [.num .i16 1, .num .i16 2], [ascii "x"],
    some [(ascii "units", .str (ascii "m"))], false⟩
def fiS : HVar :=
  ⟨ascii "s", .slice .str [.str (ascii "a"), .str (ascii "bc"), .str []], [ascii "y"], none, false⟩
def fiM : HVar :=
  ⟨ascii "m", .slice (.slice (.num .f64)) [.slice (.num .f64) [.num .f64 1, .num .f64 2, .num .f64 3],
    .slice (.num .f64) [.num .f64 4, .num .f64 5, .num .f64 6]], [ascii "x", ascii "y"],
    some [(ascii "list", .slice .str [.str (ascii "p"), .str (ascii "q")])], false⟩
def fiH : HGroup := .mk { name := ascii "h", vars := [fiM] } []
def fiG : HGroup := .mk { name := ascii "g", vars := [fiS] } [fiH]
def fiRoot : HGroup :=
  .mk { name := ascii "/", vars := [fiX], attrs := some [(ascii "title", .str (ascii "test"))] } [fiG]

theorem fi_valid : isValidName fiU (ascii "x") = true ∧ isValidName fiU (ascii "g") = true ∧
    isValidName fiU (ascii "s") = true ∧ isValidName fiU (ascii "h") = true ∧
    isValidName fiU (ascii "m") = true ∧ Cdf.hasValidNames fiU none = true ∧
    Cdf.hasValidNames fiU (fiAttrs "title" (.str (ascii "test"))) = true ∧
    Cdf.hasValidNames fiU (fiAttrs "units" (.str (ascii "m"))) = true ∧
    Cdf.hasValidNames fiU (fiAttrs "list" (.slice .str [.str (ascii "p"), .str (ascii "q")])) = true := by
  decide +kernel

theorem fi_add (root : HGroup) (p : List Bytes) (n : Bytes) (v : GoVal) (d : List Bytes) (a : Attrs)
    (as : HAttrs) (hn : isValidName fiU n = true) (ha : Cdf.hasValidNames fiU a = true)
    (hs : supported v = true) (hp : attrPairs a = .ok as) :
    HCall.run fiU root (.addVar p n v d a) = root.modify (fun g =>
        .mk { g.info with vars := setVar g.info.vars ⟨n, v, d, as, false⟩ } g.subs) p := by
  simp [HCall.run, addVarH, hn, ha, hs, hp]

theorem fi_create (root : HGroup) (p : List Bytes) (n : Bytes) (hn : isValidName fiU n = true) :
    HCall.run fiU root (.createGroup p n) = root.modify (fun g =>
      if g.subs.any (·.name == n) then g else .mk g.info (g.subs ++ [.mk { name := n } []])) p := by
  simp [HCall.run, createGroupH, hn]

theorem fi_set (root : HGroup) (p : List Bytes) (a : Attrs) (as : HAttrs)
    (ha : Cdf.hasValidNames fiU a = true) (hp : attrPairs a = .ok as) :
    HCall.run fiU root (.addAttributes p a) = root.modify (fun g => .mk { g.info with attrs := as } g.subs) p := by
  simp [HCall.run, addAttributesH, ha, hp]

theorem fi_run : runCalls fiU fiCalls = fiRoot := by
  obtain ⟨hx, hg, hs, hh, hm, h0, h1, h2, h3⟩ := fi_valid
  simp only [runCalls, fiCalls, List.foldl_cons, List.foldl_nil]
  rw [fi_set _ _ _ _ h1 rfl, fi_add _ _ _ _ _ _ _ hx h2 rfl rfl, fi_create _ _ _ hg,
    fi_add _ _ _ _ _ _ _ hs h0 rfl rfl, fi_create _ _ _ hh, fi_add _ _ _ _ _ _ _ hm h3 rfl rfl]
  rfl

theorem fi_str (k : Bytes) (s : Bytes) (hk : k ∉ reservedKeys) (h0 : (0 : UInt8) ∉ k)
    (hs : (0 : UInt8) ∉ s) (hl : k.length + s.length ≤ 1000) : AttrAllowed (k, .str s) :=
  ⟨hk, h0, by simp only [valueRoom]; omega, .common _ (.str s hs (by omega)), by intro x hx; simp [heapStrs] at hx⟩

theorem fi_attrs (p : Bytes × GoVal) (h : AttrAllowed p) : AttrsAllowed (some [p]) :=
  ⟨by simp, by simpa using h, by simp⟩

theorem fi_none : AttrsAllowed none := ⟨by simp, by simp, by simp⟩

theorem fi_x : VarAllowed fiX := by
  refine ⟨.common _ _ (.plain _ _ (.num .i16 [2] _ ?_ ⟨by decide, by decide, by decide, by decide⟩)), ?_,
    fi_attrs _ (fi_str _ _ (by decide) (by decide) (by decide) (by decide))⟩
  · refine ⟨_, rfl, rfl, ?_⟩
    intro x hx
    simp only [List.mem_cons, List.not_mem_nil, or_false] at hx
    rcases hx with rfl | rfl
    · exact ⟨1, rfl, by decide⟩
    · exact ⟨2, rfl, by decide⟩
  · exact (by decide : ∀ s ∈ heapStrs fiX.val, ¬ ascii "__dimref:" <+: s)

theorem fi_s : VarAllowed fiS := by
  refine ⟨.common _ _ (.strs [3] _ ?_ (by decide) ⟨by decide, by decide, by decide, by decide⟩), ?_, fi_none⟩
  · refine ⟨_, rfl, rfl, ?_⟩
    intro x hx
    simp only [List.mem_cons, List.not_mem_nil, or_false] at hx
    rcases hx with rfl | rfl | rfl
    · exact ⟨_, rfl, by decide, by decide⟩
    · exact ⟨_, rfl, by decide, by decide⟩
    · exact ⟨_, rfl, by decide, by decide⟩
  · exact (by decide : ∀ s ∈ heapStrs fiS.val, ¬ ascii "__dimref:" <+: s)

theorem fi_m : VarAllowed fiM := by
  refine ⟨.common _ _ (.plain _ _ (.num .f64 [2, 3] _ ?_ ⟨by decide, by decide, by decide, by decide⟩)), ?_,
    fi_attrs _ ⟨by decide, by decide, by decide, .common _ (.strs [2] _ ?_ ⟨by decide, by decide⟩ (by decide)
      (by decide) (by decide)), (by decide : ∀ s ∈ heapStrs (.slice .str [.str (ascii "p"), .str (ascii "q")]),
        ¬ ascii "__dimref:" <+: s)⟩⟩
  · refine ⟨_, rfl, rfl, ?_⟩
    intro x hx
    simp only [List.mem_cons, List.not_mem_nil, or_false] at hx
    rcases hx with rfl | rfl
    · refine ⟨_, rfl, rfl, ?_⟩
      intro x hx
      simp only [List.mem_cons, List.not_mem_nil, or_false] at hx
      rcases hx with rfl | rfl | rfl <;> exact ⟨_, rfl, by decide⟩
    · refine ⟨_, rfl, rfl, ?_⟩
      intro x hx
      simp only [List.mem_cons, List.not_mem_nil, or_false] at hx
      rcases hx with rfl | rfl | rfl <;> exact ⟨_, rfl, by decide⟩
  · exact (by decide : ∀ s ∈ heapStrs fiM.val, ¬ ascii "__dimref:" <+: s)
  · refine ⟨_, rfl, rfl, ?_⟩
    intro x hx
    simp only [List.mem_cons, List.not_mem_nil, or_false] at hx
    rcases hx with rfl | rfl <;> exact ⟨_, rfl, by decide, by decide⟩

theorem fi_name (n : Bytes) (h : n ≠ [] ∧ n.length ≤ 255 ∧ slash ∉ n) : NameOK n := ⟨h.1, h.2.1, h.2.2⟩

theorem fi_groups : GroupAllowed fiRoot := by
  refine .mk _ _ (fi_attrs _ (fi_str _ _ (by decide) (by decide) (by decide) (by decide))) ?_ ?_ ?_ (by decide) ?_
  · intro v hv
    rw [List.mem_singleton.1 hv]
    exact fi_x
  · intro n hn
    exact fi_name n ((by decide : ∀ n ∈ [ascii "x", ascii "g"], n ≠ [] ∧ n.length ≤ 255 ∧ slash ∉ n) n hn)
  · exact (by decide : ∀ v ∈ [fiX], v.name ∉ [ascii "g"])
  · intro t ht
    rw [List.mem_singleton.1 ht]
    refine .mk _ _ fi_none ?_ ?_ ?_ (by decide) ?_
    · intro v hv
      rw [List.mem_singleton.1 hv]
      exact fi_s
    · intro n hn
      exact fi_name n ((by decide : ∀ n ∈ [ascii "s", ascii "h"], n ≠ [] ∧ n.length ≤ 255 ∧ slash ∉ n) n hn)
    · exact (by decide : ∀ v ∈ [fiS], v.name ∉ [ascii "h"])
    · intro t ht
      rw [List.mem_singleton.1 ht]
      refine .mk _ _ fi_none ?_ ?_ ?_ (by decide) ?_
      · intro v hv
        rw [List.mem_singleton.1 hv]
        exact fi_m
      · intro n hn
        exact fi_name n ((by decide : ∀ n ∈ [ascii "m"], n ≠ [] ∧ n.length ≤ 255 ∧ slash ∉ n) n hn)
      · exact (by decide : ∀ v ∈ [fiM], v.name ∉ [])
      · intro t ht
        cases ht

theorem fi_noUser : NoUser fiRoot := by
  have h1 : ∀ {k : Bytes} {v : GoVal}, Common v → ∀ p ∈ [(k, v)], Common p.2 := by
    intro k v h p hp
    rw [List.mem_singleton.1 hp]
    exact h
  have h2 : ∀ {w : HVar}, Common w.val → (∀ p ∈ w.attrs.getD [], Common p.2) →
      ∀ v ∈ [w], Common v.val ∧ ∀ p ∈ v.attrs.getD [], Common p.2 := by
    intro w g1 g2 v hv
    rw [List.mem_singleton.1 hv]
    exact ⟨g1, g2⟩
  refine .mk _ _ (h1 trivial) (h2 trivial (h1 trivial)) fun t ht => ?_
  rw [List.mem_singleton.1 ht]
  refine .mk _ _ (fun _ h => by cases h) (h2 trivial fun _ h => by cases h) fun t ht => ?_
  rw [List.mem_singleton.1 ht]
  exact .mk _ _ (fun _ h => by cases h) (h2 trivial (h1 trivial)) fun _ h => by cases h

theorem fi_allowed : FileAllowed (runCalls fiU fiCalls) := by
  rw [fi_run]
  refine ⟨⟨fi_groups, by decide, ?_, ?_, by decide, by decide⟩, fi_noUser⟩
  · exact (by decide : ∀ d ∈ dimsOf fiRoot, d.length ≤ 255 ∧ d ∉ [ascii "g"])
  · intro v hv _
    rw [List.mem_singleton.1 hv]
    have hx := fi_x
    refine ⟨?_, ?_, (by decide : ¬ dimMarker <+: fiX.name), (by decide : (0 : UInt8) ∉ fiX.name)⟩
    · refine .num .i16 [2] _ ?_ ⟨by decide, by decide, by decide, by decide⟩
      refine ⟨_, rfl, rfl, ?_⟩
      intro x hx
      simp only [List.mem_cons, List.not_mem_nil, or_false] at hx
      rcases hx with rfl | rfl <;> exact ⟨_, rfl, by decide⟩
    · intro p hp
      rw [List.mem_singleton.1 hp]
      exact .str _ (by decide) (by decide)

-- a file with nested groups, a coordinate variable, a dimension without variable, strings and a
-- matrix, and an order other than the identity
example : FileAllowed (runCalls fiU fiCalls) ∧ OrderOK (fun _ vs => vs.reverse) ∧
    (runCalls fiU fiCalls).at? [ascii "g", ascii "h"] = some fiH ∧
    dimsRead (runCalls fiU fiCalls) [ascii "g", ascii "h"] fiM = [ascii "x", ascii "y"] ∧
    PathOf [ascii "g", ascii "h"] (ascii "/g//h") :=
  ⟨fi_allowed, fun _ vs => vs.reverse_perm, by rw [fi_run]; rfl, by rw [fi_run]; decide,
    .cons 1 (ascii "g") [ascii "h"] (ascii "//h") (by decide) (by decide) (.inr (by decide))
      (.cons 2 (ascii "h") [] [] (by decide) (by decide) (.inl rfl) (.nil 0))⟩

/-! ### Dimension names that are lost -/

def fiBox : GoVal := .slice (.slice (.num .i8)) [.slice (.num .i8) [.num .i8 1, .num .i8 2]]

theorem fiBox_plain : VarPlain 2 fiBox := by
  refine .num .i8 [1, 2] _ ?_ ⟨by decide, by decide, by decide, by decide⟩
  refine ⟨_, rfl, rfl, ?_⟩
  intro x hx
  rw [List.mem_singleton.1 hx]
  refine ⟨_, rfl, rfl, ?_⟩
  intro x hx
  simp only [List.mem_cons, List.not_mem_nil, or_false] at hx
  rcases hx with rfl | rfl <;> exact ⟨_, rfl, by decide⟩

def fiOne (dims : List Bytes) : List HCall := [.addVar [] (ascii "x") fiBox dims none]

def fiOneRoot (dims : List Bytes) : HGroup :=
  .mk { name := ascii "/", vars := [⟨ascii "x", fiBox, dims, none, false⟩], attrs := some [] } []

theorem fiOne_run (dims : List Bytes) : runCalls fiU (fiOne dims) = fiOneRoot dims := by
  simp only [runCalls, fiOne, List.foldl_cons, List.foldl_nil]
  rw [fi_add _ _ _ _ _ _ _ fi_valid.1 fi_valid.2.2.2.2.2.1 rfl rfl]
  rfl

theorem fiOne_allowed (d e : Bytes) (hd : d.length ≤ 255 ∧ e.length ≤ 255) :
    FileAllowed (runCalls fiU (fiOne [d, e])) := by
  rw [fiOne_run]
  have hdims : dimsOf (fiOneRoot [d, e]) = [d, e] := rfl
  refine ⟨⟨.mk _ _ ⟨by simp, by simp, by simp⟩ ?_ ?_ ?_ (by simp) ?_, by simp [fiOneRoot, HGroup.info], ?_, ?_, ?_, ?_⟩,
    .mk _ _ (fun _ h => by cases h) (fun v hv => by rw [List.mem_singleton.1 hv]; exact ⟨trivial, fun _ h => by cases h⟩)
      fun _ h => by cases h⟩
  · intro v hv
    rw [List.mem_singleton.1 hv]
    exact ⟨.common _ _ (.plain _ _ fiBox_plain), (by decide : ∀ s ∈ heapStrs fiBox, ¬ ascii "__dimref:" <+: s), fi_none⟩
  · intro n hn
    exact fi_name n ((by decide : ∀ n ∈ [ascii "x"], n ≠ [] ∧ n.length ≤ 255 ∧ slash ∉ n) n hn)
  · intro v hv hm
    cases hm
  · intro t ht
    cases ht
  · intro n hn
    rw [hdims] at hn
    simp only [List.mem_cons, List.not_mem_nil, or_false] at hn
    refine ⟨?_, fun hm => by cases hm⟩
    rcases hn with rfl | rfl
    · exact hd.1
    · exact hd.2
  · intro v hv _
    rw [List.mem_singleton.1 hv]
    refine ⟨fiBox_plain, ?_, (by decide : ¬ dimMarker <+: ascii "x"), (by decide : (0 : UInt8) ∉ ascii "x")⟩
    intro p hp
    simp at hp
  · rw [hdims]
    simp [fiOneRoot, HGroup.info, HGroup.subs]
  · simp only [fiOneRoot, HGroup.need, List.map_cons, List.map_nil, List.sum_cons, List.sum_nil, HVar.need,
      HGroup.needL, attrsNeed]
    have : varNeed fiBox 2 ≤ 10 := by decide
    simp only [List.length_cons, List.length_nil]
    simp
    omega

/-- What is read of the variable `x` in these files. -/
theorem fiOne_reads (d e : Bytes) (hd : d.length ≤ 255 ∧ e.length ≤ 255) :
    ∃ file, closeFile false (fun _ vs => vs) (runCalls fiU (fiOne [d, e])) = .ok file ∧ (file.length < 2 ^ 63 →
      ∃ o G r, OpensTo file o ∧ (rootGroup o).getGroup [47] = .ok G ∧
          (G.getVariable ⟨fun b => .ok b, 0, file⟩ [] (ascii "x")).2 = .ok r ∧
          r.dims = dimsRead (fiOneRoot [d, e]) [] ⟨ascii "x", fiBox, [d, e], none, false⟩) := by
  obtain ⟨file, hc, h⟩ := C38_round_trip_partial fiU (fiOne [d, e]) (fun _ vs => vs) (fun _ vs => .refl vs)
    (fiOne_allowed d e hd)
  refine ⟨file, hc, fun hl => ?_⟩
  obtain ⟨o, ho, -, hread⟩ := h hl
  have := hread (fun b => .ok b) 0 [] [] [47] (.nil 1) rfl
  rw [fiOne_run] at this
  obtain ⟨G, hG, hR⟩ := this
  have hv := hR.var ⟨ascii "x", fiBox, [d, e], none, false⟩ (by simp [fiOneRoot, HGroup.info])
  exact ⟨o, G, _, ho, hG, hv, rfl⟩

/-- The length of what `Close` writes. -/
def fiLen (root : HGroup) : Nat :=
  match closeFile false (fun _ vs => vs) root with
  | .ok f => f.length
  | _ => 0

theorem fi_small : fiLen (fiOneRoot [ascii "x", ascii "y"]) < 2 ^ 63 ∧
    fiLen (fiOneRoot [ascii "y", []]) < 2 ^ 63 ∧ fiLen fiRoot < 2 ^ 63 := by
  decide +kernel

theorem fiLen_ok {root : HGroup} {f : Bytes} (h : closeFile false (fun _ vs => vs) root = .ok f) :
    fiLen root = f.length := by
  simp only [fiLen, h]

-- the files of the theorems above are not too long
example : ∃ file, closeFile false (fun _ vs => vs) (runCalls fiU fiCalls) = .ok file ∧ file.length < 2 ^ 63 := by
  obtain ⟨file, hc, -⟩ := C38_round_trip_partial fiU fiCalls (fun _ vs => vs) (fun _ vs => .refl vs) fi_allowed
  refine ⟨file, hc, ?_⟩
  rw [fi_run] at hc
  rw [← fiLen_ok hc]
  exact fi_small.2.2

/-- C42 fails for a variable of the root group that has the name of one of its dimensions and another
dimension: only its own name is returned. -/
theorem C42_negation_coordinate :
    ∃ file o G r, closeFile false (fun _ vs => vs) (runCalls fiU (fiOne [ascii "x", ascii "y"])) = .ok file ∧
      OpensTo file o ∧ (rootGroup o).getGroup [47] = .ok G ∧
      (G.getVariable ⟨fun b => .ok b, 0, file⟩ [] (ascii "x")).2 = .ok r ∧ r.dims = [ascii "x"] := by
  obtain ⟨file, hc, h⟩ := fiOne_reads (ascii "x") (ascii "y") (by decide)
  have hl : file.length < 2 ^ 63 := by
    rw [fiOne_run] at hc
    rw [← fiLen_ok hc]
    exact fi_small.1
  obtain ⟨o, G, r, h⟩ := h hl
  exact ⟨file, o, G, r, hc, h⟩

/-- C42 fails for a variable with an empty dimension name: all names are lost. -/
theorem C42_negation_empty_name :
    ∃ file o G r, closeFile false (fun _ vs => vs) (runCalls fiU (fiOne [ascii "y", []])) = .ok file ∧
      OpensTo file o ∧ (rootGroup o).getGroup [47] = .ok G ∧
      (G.getVariable ⟨fun b => .ok b, 0, file⟩ [] (ascii "x")).2 = .ok r ∧ r.dims = [] := by
  obtain ⟨file, hc, h⟩ := fiOne_reads (ascii "y") [] (by decide)
  have hl : file.length < 2 ^ 63 := by
    rw [fiOne_run] at hc
    rw [← fiLen_ok hc]
    exact fi_small.2.1
  obtain ⟨o, G, r, h⟩ := h hl
  exact ⟨file, o, G, r, hc, h⟩

end Verif.H5
