import Verif.Spec.H5Session
/-!
Lemmas on histories of calls on an HDF5 writer.
-/
namespace Verif.H5

/-- Names are unique in every group. -/
inductive Uniq : HGroup → Prop
  | mk (i : GInfo) (subs : List HGroup) : (i.vars.map (·.name)).Nodup →
      (subs.map HGroup.name).Nodup → (∀ s ∈ subs, Uniq s) → Uniq (.mk i subs)

theorem Uniq.at {g g' : HGroup} {p : List Bytes} (h : Uniq g) (hp : g.at? p = some g') : Uniq g' := by
  induction p generalizing g with
  | nil => simp only [HGroup.at?, Option.some.injEq] at hp; exact hp ▸ h
  | cons n p ih =>
    cases g with
    | mk i subs =>
      cases h with
      | mk _ _ _ _ hs =>
        simp only [HGroup.at?] at hp
        split at hp
        · rename_i s hf
          exact ih (hs s (List.mem_of_find?_eq_some hf)) hp
        · cases hp

theorem modify_name (f : HGroup → HGroup) (hf : ∀ g, (f g).name = g.name) (p : List Bytes)
    (g : HGroup) : (g.modify f p).name = g.name := by
  cases p with
  | nil => exact hf g
  | cons n p => cases g; rfl

theorem Uniq.modify {f : HGroup → HGroup} (hf : ∀ g, (f g).name = g.name)
    (hu : ∀ g, Uniq g → Uniq (f g)) (p : List Bytes) {g : HGroup} (h : Uniq g) :
    Uniq (g.modify f p) := by
  induction p generalizing g with
  | nil => exact hu g h
  | cons n p ih =>
    cases h with
    | mk i subs h1 h2 h3 =>
      refine .mk _ _ h1 ?_ ?_
      · have e : (subs.map fun s => if s.name = n then s.modify f p else s).map HGroup.name =
            subs.map HGroup.name := by
          rw [List.map_map]
          apply List.map_congr_left
          intro s _
          simp only [Function.comp]
          split
          · exact modify_name f hf p s
          · rfl
        rw [e]
        exact h2
      · intro s hs
        simp only [List.mem_map] at hs
        obtain ⟨t, ht, rfl⟩ := hs
        split
        · exact ih (h3 t ht)
        · exact h3 t ht

theorem find_name_map {f : HGroup → HGroup} (n : Bytes) (m : Bytes)
    (hf : ∀ g, (f g).name = g.name) (subs : List HGroup) :
    (subs.map fun s => if s.name = n then f s else s).find? (·.name == m) =
      if m = n then (subs.find? (·.name == m)).map f else subs.find? (·.name == m) := by
  induction subs with
  | nil => simp
  | cons s subs ih =>
    simp only [List.map_cons, List.find?_cons]
    by_cases hs : s.name = n
    · by_cases hm : m = n
      · subst hm
        simp [hs, hf]
      · have : (n == m) = false := by simp [Ne.symm hm]
        simp [hs, hf, hm, this, ih]
    · by_cases hm : m = n
      · subst hm
        have : (s.name == m) = false := by simp [hs]
        simp only [hs, if_false, this, ih, if_true]
      · simp only [hs, if_false, hm, ih]

/-- The group at the path that has been changed. -/
theorem at_modify (f : HGroup → HGroup) (hf : ∀ g, (f g).name = g.name) (p : List Bytes)
    (g : HGroup) : (g.modify f p).at? p = (g.at? p).map f := by
  induction p generalizing g with
  | nil => rfl
  | cons n p ih =>
    cases g with
    | mk i subs =>
      simp only [HGroup.modify, HGroup.at?]
      rw [find_name_map n n (modify_name f hf p)]
      simp only [if_true]
      cases subs.find? (·.name == n) with
      | none => rfl
      | some s => simp only [Option.map_some]; exact ih s

/-- The fields of the other groups do not change when `f` leaves the subgroups alone. -/
theorem at_modify_ne (f : HGroup → HGroup) (hf : ∀ g, (f g).name = g.name)
    (hs : ∀ g, (f g).subs = g.subs) (p q : List Bytes) (hpq : q ≠ p)
    (g : HGroup) : ((g.modify f p).at? q).map HGroup.info = (g.at? q).map HGroup.info := by
  induction p generalizing g q with
  | nil =>
    cases q with
    | nil => exact absurd rfl hpq
    | cons m q =>
      have e : (f g).at? (m :: q) = g.at? (m :: q) := by
        have := hs g
        cases hg : f g with
        | mk i s =>
          cases g with
          | mk i' s' =>
            rw [hg] at this
            simp only [HGroup.subs] at this
            subst this
            rfl
      simp only [HGroup.modify, e]
  | cons n p ih =>
    cases g with
    | mk i subs =>
      cases q with
      | nil => rfl
      | cons m q =>
        simp only [HGroup.modify, HGroup.at?]
        rw [find_name_map n m (modify_name f hf p)]
        by_cases hm : m = n
        · subst hm
          simp only [if_true]
          cases subs.find? (·.name == m) with
          | none => rfl
          | some s =>
            simp only [Option.map_some]
            exact ih q (fun h => hpq (by rw [h])) s
        · simp only [hm, if_false]

/-- Changing the group at a path into itself changes nothing. -/
theorem modify_id (f : HGroup → HGroup) (p : List Bytes) (g g' : HGroup) (hu : Uniq g)
    (hp : g.at? p = some g') (hf : f g' = g') : g.modify f p = g := by
  induction p generalizing g with
  | nil => simp only [HGroup.at?, Option.some.injEq] at hp; subst hp; exact hf
  | cons n p ih =>
    cases hu with
    | mk i subs h1 h2 h3 =>
      simp only [HGroup.at?] at hp
      split at hp
      · rename_i s hfind
        simp only [HGroup.modify]
        congr 1
        have hmem := List.mem_of_find?_eq_some hfind
        have hname : s.name = n := by simpa using List.find?_some hfind
        refine (List.map_congr_left (g := id) (fun t ht => ?_)).trans (List.map_id _)
        simp only [id]
        split
        · rename_i htn
          have : t = s := by
            have hinj : ∀ l : List HGroup, (l.map HGroup.name).Nodup → t ∈ l → s ∈ l →
                t.name = s.name → t = s := by
              intro l
              induction l with
              | nil => intro _ h; cases h
              | cons a l ihl =>
                intro hnd hta hsa he
                simp only [List.map_cons, List.nodup_cons, List.mem_map, not_exists, not_and] at hnd
                simp only [List.mem_cons] at hta hsa
                rcases hta with rfl | hta <;> rcases hsa with rfl | hsa
                · rfl
                · exact absurd he.symm (hnd.1 s hsa)
                · exact absurd he (hnd.1 t hta)
                · exact ihl hnd.2 hta hsa he
            exact hinj subs h2 ht hmem (by rw [htn, hname])
          rw [this]
          exact ih s (h3 s hmem) hp
        · rfl
      · cases hp

theorem setVar_names (vars : List HVar) (v : HVar) :
    (setVar vars v).map (·.name) =
      if v.name ∈ vars.map (·.name) then vars.map (·.name) else vars.map (·.name) ++ [v.name] := by
  unfold setVar
  by_cases h : v.name ∈ vars.map (·.name)
  · have h' : (vars.any fun x => x.name == v.name) = true := by
      simp only [List.mem_map] at h
      obtain ⟨w, hw, he⟩ := h
      simp only [List.any_eq_true]
      exact ⟨w, hw, by simp [he]⟩
    simp only [h', if_true, h, List.map_map]
    apply List.map_congr_left
    intro w _
    simp only [Function.comp]
    split
    · rename_i he; exact he.symm
    · rfl
  · have h' : (vars.any fun x => x.name == v.name) = false := by
      simp only [List.any_eq_false]
      intro w hw he
      exact h (List.mem_map.2 ⟨w, hw, by simpa using he⟩)
    simp [h', h]

theorem setVar_nodup {vars : List HVar} (v : HVar) (h : (vars.map (·.name)).Nodup) :
    ((setVar vars v).map (·.name)).Nodup := by
  rw [setVar_names]
  split
  · exact h
  · rename_i hn
    rw [List.nodup_append]
    refine ⟨h, by simp, ?_⟩
    intro a ha b hb
    simp only [List.mem_singleton] at hb
    subst hb
    intro he
    exact hn (he ▸ ha)

theorem setVar_find (vars : List HVar) (v : HVar) (n : Bytes) :
    (setVar vars v).find? (·.name == n) =
      if n = v.name then some v else vars.find? (·.name == n) := by
  unfold setVar
  by_cases h : (vars.any fun x => x.name == v.name) = true
  · simp only [h, if_true]
    induction vars with
    | nil => simp at h
    | cons w ws ih =>
      simp only [List.map_cons, List.find?_cons]
      by_cases hw : w.name = v.name
      · by_cases hn : n = v.name
        · subst hn; simp [hw]
        · have hb : (v.name == n) = false := by simp [Ne.symm hn]
          simp only [hw, if_true, hb, hn, if_false]
          by_cases h2 : (ws.any fun x => x.name == v.name) = true
          · rw [ih h2]; simp [hn]
          · have : ws.map (fun w => if w.name = v.name then v else w) = ws := by
              refine (List.map_congr_left (g := id) (fun x hx => ?_)).trans (List.map_id _)
              simp only [List.any_eq_true, not_exists, not_and, beq_iff_eq] at h2
              simp [h2 x hx]
            rw [this]
      · have h2 : (ws.any fun x => x.name == v.name) = true := by
          simp only [List.any_cons, Bool.or_eq_true, beq_iff_eq] at h
          rcases h with h | h
          · exact absurd h hw
          · exact h
        rw [if_neg hw, ih h2]
        by_cases hn : n = v.name
        · subst hn
          have : (w.name == v.name) = false := by simp [hw]
          simp [this]
        · simp only [hn, if_false]
  · have h' : (vars.any fun x => x.name == v.name) = false := by simpa using h
    simp only [h', List.find?_append]
    by_cases hn : n = v.name
    · subst hn
      have : vars.find? (fun x => x.name == v.name) = none := by
        rw [List.find?_eq_none]
        intro x hx hc
        simp only [List.any_eq_false] at h'
        exact h' x hx hc
      simp [this]
    · have hb : (v.name == n) = false := by simp [Ne.symm hn]
      simp [hn, hb]

theorem filter_nodup {vars : List HVar} (h : (vars.map (·.name)).Nodup) {n : Bytes} {v : HVar}
    (hf : vars.find? (·.name == n) = some v) : vars.filter (·.name == n) = [v] := by
  induction vars with
  | nil => simp at hf
  | cons w ws ih =>
    simp only [List.map_cons, List.nodup_cons] at h
    by_cases hw : (w.name == n) = true
    · simp only [List.find?_cons, hw, Option.some.injEq] at hf
      subst hf
      simp only [List.filter_cons, hw, if_true, List.cons.injEq, true_and, List.filter_eq_nil_iff]
      intro x hx hc
      have e1 : w.name = n := by simpa using hw
      have e2 : x.name = n := by simpa using hc
      exact h.1 (List.mem_map.2 ⟨x, hx, by rw [e1, e2]⟩)
    · have hw' : (w.name == n) = false := by simpa using hw
      simp only [List.find?_cons, hw'] at hf
      simp only [List.filter_cons, hw', Bool.false_eq_true, if_false]
      exact ih h.2 hf

theorem addVarH_ok {u : UniTables} {root root' : HGroup} {path : List Bytes} {name : Bytes}
    {val : GoVal} {dims : List Bytes} {attrs : Attrs}
    (h : addVarH u root path name val dims attrs = .ok root') :
    ∃ as, attrPairs attrs = .ok as ∧ root' = root.modify (fun g =>
      .mk { g.info with vars := setVar g.info.vars ⟨name, val, dims, as, false⟩ } g.subs) path := by
  unfold addVarH at h
  split at h
  · cases h
  split at h
  · cases h
  split at h
  · cases h
  · cases h
  · rename_i as has
    simp only [Res.ok.injEq] at h
    exact ⟨as, has, h.symm⟩

theorem Uniq.addVar {u : UniTables} {root root' : HGroup} {path : List Bytes} {name : Bytes}
    {val : GoVal} {dims : List Bytes} {attrs : Attrs} (hu : Uniq root)
    (h : addVarH u root path name val dims attrs = .ok root') : Uniq root' := by
  obtain ⟨as, -, rfl⟩ := addVarH_ok h
  refine hu.modify (fun g => by cases g; rfl) ?_ path
  intro g hg
  cases hg with
  | mk i subs h1 h2 h3 => exact .mk _ _ (setVar_nodup _ h1) h2 h3

theorem Uniq.addAttributes {u : UniTables} {root root' : HGroup} {path : List Bytes}
    {attrs : Attrs} (hu : Uniq root)
    (h : addAttributesH u root path attrs = .ok root') : Uniq root' := by
  unfold addAttributesH at h
  split at h
  · cases h
  split at h
  · cases h
  · cases h
  · simp only [Res.ok.injEq] at h
    subst h
    refine hu.modify (fun g => by cases g; rfl) ?_ path
    intro g hg
    cases hg with
    | mk i subs h1 h2 h3 => exact .mk _ _ h1 h2 h3

/-- What `CreateGroup` does to the group it is called on. -/
def withGroup (name : Bytes) (g : HGroup) : HGroup :=
  if g.subs.any (·.name == name) then g else .mk g.info (g.subs ++ [.mk { name := name } []])

theorem withGroup_name (name : Bytes) (g : HGroup) : (withGroup name g).name = g.name := by
  unfold withGroup
  split
  · rfl
  · cases g; rfl

theorem createGroupH_ok {u : UniTables} {root root' : HGroup} {path : List Bytes} {name : Bytes}
    (h : createGroupH u root path name = .ok root') : root' = root.modify (withGroup name) path := by
  unfold createGroupH at h
  split at h
  · cases h
  · simp only [Res.ok.injEq] at h
    exact h.symm

theorem Uniq.createGroup {u : UniTables} {root root' : HGroup} {path : List Bytes} {name : Bytes}
    (hu : Uniq root) (h : createGroupH u root path name = .ok root') : Uniq root' := by
  rw [createGroupH_ok h]
  refine hu.modify (withGroup_name name) ?_ path
  intro g hg
  unfold withGroup
  split
  · exact hg
  · rename_i hn
    cases hg with
    | mk i subs h1 h2 h3 =>
      refine .mk _ _ h1 ?_ ?_
      · simp only [HGroup.subs, List.map_append, List.map_cons, List.map_nil]
        rw [List.nodup_append]
        refine ⟨h2, by simp, ?_⟩
        intro a ha b hb he
        simp only [List.mem_singleton] at hb
        subst hb
        subst he
        simp only [List.mem_map] at ha
        obtain ⟨s, hs, he⟩ := ha
        exact hn (List.any_eq_true.2 ⟨s, hs, by simpa using he⟩)
      · intro s hs
        rcases List.mem_append.1 hs with hs | hs
        · exact h3 s hs
        · simp only [List.mem_singleton] at hs
          subst hs
          exact .mk _ _ (by simp) (by simp) (by simp)

theorem Uniq.run {u : UniTables} {root : HGroup} (hu : Uniq root) (c : HCall) :
    Uniq (c.run u root) := by
  cases c with
  | createGroup p n =>
    simp only [HCall.run]
    split
    · exact hu.createGroup (by assumption)
    · exact hu
  | addVar p n v d a =>
    simp only [HCall.run]
    split
    · exact hu.addVar (by assumption)
    · exact hu
  | addAttributes p a =>
    simp only [HCall.run]
    split
    · exact hu.addAttributes (by assumption)
    · exact hu

theorem uniq_runCalls (u : UniTables) (cs : List HCall) : Uniq (runCalls u cs) := by
  unfold runCalls
  have h0 : Uniq newRoot := .mk _ _ (by simp) (by simp) (by simp)
  revert h0
  generalize newRoot = r
  induction cs generalizing r with
  | nil => exact id
  | cons c cs ih => exact fun h => ih _ (h.run c)

theorem at_append (root : HGroup) (p q : List Bytes) :
    root.at? (p ++ q) = (root.at? p).bind (·.at? q) := by
  induction p generalizing root with
  | nil => rfl
  | cons n p ih =>
    cases root with
    | mk i subs =>
      simp only [List.cons_append, HGroup.at?]
      cases subs.find? (·.name == n) with
      | none => rfl
      | some s => exact ih s

theorem at_one (g : HGroup) (n : Bytes) : g.at? [n] = g.subs.find? (·.name == n) := by
  cases g with
  | mk i subs =>
    simp only [HGroup.at?, HGroup.subs]
    cases subs.find? (·.name == n) <;> rfl

theorem at_new (n : Bytes) (p : List Bytes) (root gp : HGroup) (hp : root.at? p = some gp)
    (hn : root.at? (p ++ [n]) = none) (q : List Bytes) (hq : q ≠ p ++ [n]) :
    ((root.modify (withGroup n) p).at? q).map HGroup.info = (root.at? q).map HGroup.info := by
  induction p generalizing root q with
  | nil =>
    simp only [List.nil_append, at_one] at hn hq
    have hany : (root.subs.any fun x => x.name == n) = false := by
      rw [List.find?_eq_none] at hn
      simpa using hn
    simp only [HGroup.modify, withGroup, hany, Bool.false_eq_true, if_false]
    cases root with
    | mk i subs =>
      simp only [HGroup.subs] at hn hany
      cases q with
      | nil => rfl
      | cons m q =>
        simp only [HGroup.at?, HGroup.info, HGroup.subs, List.find?_append]
        cases hm : subs.find? (·.name == m) with
        | some s => rfl
        | none =>
          simp only [Option.none_or, List.find?_cons, List.find?_nil, HGroup.name, HGroup.info]
          by_cases hnm : n = m
          · subst hnm
            simp only [BEq.rfl]
            cases q with
            | nil => exact absurd rfl hq
            | cons x q => rfl
          · have : (n == m) = false := by simp [hnm]
            simp only [this]
  | cons m p ih =>
    cases root with
    | mk i subs =>
      cases q with
      | nil => rfl
      | cons x q =>
        simp only [HGroup.modify, HGroup.at?, List.cons_append] at hn hp ⊢
        rw [find_name_map m x (modify_name _ (withGroup_name n) p)]
        by_cases hx : x = m
        · subst hx
          simp only [if_true]
          cases hs : subs.find? (·.name == x) with
          | none => rfl
          | some s =>
            simp only [hs, Option.map_some] at hn hp ⊢
            exact ih s hp hn q (fun h => hq (by rw [h]; rfl))
        · simp only [hx, if_false]

theorem closeFile_congr {be : Bool} {ord ord' : Order} {root : HGroup}
    (h : ∀ r, addMetadata root = .ok r → ∀ n, ord n (visits [] r) = ord' n (visits [] r)) :
    closeFile be ord root = closeFile be ord' root := by
  unfold closeFile
  cases hm : addMetadata root with
  | err e => rfl
  | panic => rfl
  | ok r => simp only [collect, h r hm]

/-- Groups that exist keep their fields when another group is changed and keeps its subgroups. -/
theorem at_modify_keep (f : HGroup → HGroup) (hf : ∀ g, (f g).name = g.name)
    (hs : ∀ g m s, g.subs.find? (·.name == m) = some s → (f g).subs.find? (·.name == m) = some s)
    (p q : List Bytes) (hpq : q ≠ p) (g g' : HGroup) (h : g.at? q = some g') :
    ((g.modify f p).at? q).map HGroup.info = some g'.info := by
  induction p generalizing g q with
  | nil =>
    cases q with
    | nil => exact absurd rfl hpq
    | cons m q =>
      have e : (f g).at? (m :: q) = g.at? (m :: q) := by
        have h1 := hs g m
        cases hg : f g with
        | mk i s =>
          cases g with
          | mk i' s' =>
            simp only [HGroup.at?] at h ⊢
            rw [hg] at h1
            simp only [HGroup.subs] at h1
            cases hfi : s'.find? (·.name == m) with
            | none => rw [hfi] at h; cases h
            | some x => rw [h1 x hfi]
      simp only [HGroup.modify, e, h, Option.map_some]
  | cons n p ih =>
    cases g with
    | mk i subs =>
      cases q with
      | nil =>
        simp only [HGroup.at?, Option.some.injEq] at h
        subst h
        rfl
      | cons m q =>
        simp only [HGroup.modify, HGroup.at?] at h ⊢
        rw [find_name_map n m (modify_name f hf p)]
        by_cases hm : m = n
        · subst hm
          simp only [if_true]
          cases hfi : subs.find? (·.name == m) with
          | none => rw [hfi] at h; cases h
          | some s =>
            rw [hfi] at h
            simp only [Option.map_some]
            exact ih q (fun h => hpq (by rw [h])) s h
        · simp only [hm, if_false]
          cases hfi : subs.find? (·.name == m) with
          | none => rw [hfi] at h; cases h
          | some s =>
            rw [hfi] at h
            simp only at h ⊢
            rw [h]
            rfl

theorem var_of_info {root : HGroup} {p : List Bytes} {n : Bytes} {i : GInfo} {v : HVar}
    (h : (root.at? p).map HGroup.info = some i) (hv : i.vars.find? (·.name == n) = some v) :
    root.var? p n = some v := by
  unfold HGroup.var?
  cases hg : root.at? p with
  | none => rw [hg] at h; cases h
  | some g =>
    rw [hg] at h
    simp only [Option.map_some, Option.some.injEq] at h
    subst h
    exact hv

/-- Calls do not change a variable, except those that add it again. -/
theorem var_run (u : UniTables) (root : HGroup) (p : List Bytes) (n : Bytes) (w : HVar) (c : HCall)
    (hc : ∀ v d a, c ≠ .addVar p n v d a) (h : root.var? p n = some w) :
    (c.run u root).var? p n = some w := by
  have hg : ∃ g, root.at? p = some g ∧ g.info.vars.find? (·.name == n) = some w := by
    unfold HGroup.var? at h
    cases hg : root.at? p with
    | none => rw [hg] at h; cases h
    | some g => rw [hg] at h; exact ⟨g, rfl, h⟩
  obtain ⟨g, hg, hv⟩ := hg
  have hid : (root.at? p).map HGroup.info = some g.info := by rw [hg]; rfl
  cases c with
  | createGroup q m =>
    simp only [HCall.run]
    split
    · rename_i r hr
      rw [createGroupH_ok hr]
      by_cases hq : p = q
      · subst hq
        refine var_of_info ?_ hv
        rw [at_modify _ (withGroup_name m), hg]
        simp only [Option.map_some, withGroup]
        split <;> rfl
      · refine var_of_info (at_modify_keep _ (withGroup_name m) ?_ q p hq root g hg) hv
        intro g m' s hs
        unfold withGroup
        split
        · exact hs
        · simp only [HGroup.subs] at hs ⊢
          rw [List.find?_append, hs]
          rfl
    · exact var_of_info hid hv
  | addVar q m x d a =>
    simp only [HCall.run]
    split
    · rename_i r hr
      obtain ⟨as, -, rfl⟩ := addVarH_ok hr
      by_cases hq : p = q
      · subst hq
        have hm : n ≠ m := by
          rintro rfl
          exact hc x d a rfl
        unfold HGroup.var?
        rw [at_modify _ (fun g => by cases g; rfl), hg]
        simp only [Option.map_some, Option.bind_some, HGroup.info]
        rw [setVar_find, if_neg hm]
        exact hv
      · refine var_of_info (i := g.info) ?_ hv
        exact at_modify_keep _ (fun g => by cases g; rfl) (fun _ _ _ h => by exact h) q p hq root g hg
    · exact var_of_info hid hv
  | addAttributes q a =>
    simp only [HCall.run]
    split
    · rename_i r hr
      unfold addAttributesH at hr
      split at hr
      · cases hr
      split at hr
      · cases hr
      · cases hr
      · rename_i as _
        simp only [Res.ok.injEq] at hr
        subst hr
        by_cases hq : p = q
        · subst hq
          unfold HGroup.var?
          rw [at_modify _ (fun g => by cases g; rfl), hg]
          simp only [Option.map_some, Option.bind_some, HGroup.info]
          exact hv
        · refine var_of_info (i := g.info) ?_ hv
          exact at_modify_keep _ (fun g => by cases g; rfl) (fun _ _ _ h => by exact h) q p hq root g hg
    · exact var_of_info hid hv

theorem var_runs (u : UniTables) (root : HGroup) (p : List Bytes) (n : Bytes) (w : HVar) (cs : List HCall)
    (hc : ∀ c ∈ cs, ∀ v d a, c ≠ .addVar p n v d a) (h : root.var? p n = some w) :
    (cs.foldl (HCall.run u) root).var? p n = some w := by
  induction cs generalizing root with
  | nil => exact h
  | cons c cs ih =>
    exact ih _ (fun x hx => hc x (by simp [hx])) (var_run u root p n w c (hc c (by simp)) h)

/-- Calls do not change the attributes of a group, except those that set them. -/
theorem attrs_run (u : UniTables) (root : HGroup) (p : List Bytes) (as : HAttrs) (c : HCall)
    (hc : ∀ a, c ≠ .addAttributes p a) (h : (root.at? p).map (·.info.attrs) = some as) :
    ((c.run u root).at? p).map (·.info.attrs) = some as := by
  obtain ⟨g, hg, hv⟩ : ∃ g, root.at? p = some g ∧ g.info.attrs = as := by
    cases hg : root.at? p with
    | none => rw [hg] at h; cases h
    | some g => rw [hg] at h; exact ⟨g, rfl, Option.some.inj h⟩
  have keep : ∀ r : HGroup, (r.at? p).map HGroup.info = some g.info → (r.at? p).map (·.info.attrs) = some as := by
    intro r hr
    cases hx : r.at? p with
    | none => rw [hx] at hr; cases hr
    | some x =>
      rw [hx] at hr
      simp only [Option.map_some, Option.some.injEq] at hr ⊢
      rw [hr, hv]
  cases c with
  | createGroup q m =>
    simp only [HCall.run]
    split
    · rename_i r hr
      rw [createGroupH_ok hr]
      by_cases hq : p = q
      · subst hq
        refine keep _ ?_
        rw [at_modify _ (withGroup_name m), hg]
        simp only [Option.map_some, withGroup]
        split <;> rfl
      · refine keep _ (at_modify_keep _ (withGroup_name m) ?_ q p hq root g hg)
        intro g m' s hs
        unfold withGroup
        split
        · exact hs
        · simp only [HGroup.subs] at hs ⊢
          rw [List.find?_append, hs]
          rfl
    · exact h
  | addVar q m x d a =>
    simp only [HCall.run]
    split
    · rename_i r hr
      obtain ⟨bs, -, rfl⟩ := addVarH_ok hr
      by_cases hq : p = q
      · subst hq
        rw [at_modify _ (fun g => by cases g; rfl), hg]
        simp only [Option.map_some, HGroup.info]
        exact congrArg some hv
      · exact keep _ (at_modify_keep _ (fun g => by cases g; rfl) (fun _ _ _ h => by exact h) q p hq root g hg)
    · exact h
  | addAttributes q a =>
    simp only [HCall.run]
    split
    · rename_i r hr
      unfold addAttributesH at hr
      split at hr
      · cases hr
      split at hr
      · cases hr
      · cases hr
      · simp only [Res.ok.injEq] at hr
        subst hr
        have hq : p ≠ q := by
          rintro rfl
          exact hc a rfl
        exact keep _ (at_modify_keep _ (fun g => by cases g; rfl) (fun _ _ _ h => by exact h) q p hq root g hg)
    · exact h

theorem attrs_runs (u : UniTables) (root : HGroup) (p : List Bytes) (as : HAttrs) (cs : List HCall)
    (hc : ∀ c ∈ cs, ∀ a, c ≠ .addAttributes p a) (h : (root.at? p).map (·.info.attrs) = some as) :
    ((cs.foldl (HCall.run u) root).at? p).map (·.info.attrs) = some as := by
  induction cs generalizing root with
  | nil => exact h
  | cons c cs ih =>
    exact ih _ (fun x hx => hc x (by simp [hx])) (attrs_run u root p as c (hc c (by simp)) h)

end Verif.H5
