import Verif.Lemmas.H5ApiTree
import Verif.Props.H5Path
import Verif.Spec.H5Read
/-!
A written file as the calls on it show it.
-/
namespace Verif.H5

theorem Tidy.of {g : HGroup} (h1 : (g.info.vars.map (·.name) ++ g.subs.map (·.name)).Nodup)
    (h2 : ∀ v ∈ g.info.vars, v.name ≠ []) (h3 : ∀ s ∈ g.subs, s.name ≠ [] ∧ slash ∉ s.name)
    (h4 : ∀ s ∈ g.subs, Tidy s) : Tidy g := by
  cases g
  exact .mk _ _ h1 h2 h3 h4

theorem mem_sortG_vars (g : HGroup) (v : HVar) : v ∈ (sortG g).info.vars ↔ v ∈ g.info.vars := by
  rw [sortG_info]
  exact (sortBy_perm _ _).mem_iff

theorem mem_sortG_subs (g t : HGroup) : t ∈ (sortG g).subs ↔ ∃ s ∈ g.subs, t = sortG s := by
  rw [sortG_subs, (sortBy_perm _ _).mem_iff, List.mem_map]
  constructor
  · rintro ⟨s, hs, rfl⟩
    exact ⟨s, hs, rfl⟩
  · rintro ⟨s, hs, rfl⟩
    exact ⟨s, hs, rfl⟩

theorem tidy_sort {g : HGroup} (h : GroupAllowed g) : Uniq g → Tidy (sortG g) := by
  induction h with
  | mk i subs h1 h2 h3 h4 h5 h6 ih =>
    intro hu
    refine Tidy.of ((sortG_names _).nodup_iff.2 (names_nodup hu h4)) ?_ ?_ ?_
    · intro v hv
      rw [mem_sortG_vars] at hv
      exact (h3 v.name (by rw [List.mem_append]; exact .inl (List.mem_map.2 ⟨v, hv, rfl⟩))).nonempty
    · intro t ht
      obtain ⟨s, hs, rfl⟩ := (mem_sortG_subs _ _).1 ht
      rw [sortG_name]
      have := h3 s.name (by rw [List.mem_append]; exact .inr (List.mem_map.2 ⟨s, hs, rfl⟩))
      exact ⟨this.nonempty, this.noSlash⟩
    · intro t ht
      obtain ⟨s, hs, rfl⟩ := (mem_sortG_subs _ _).1 ht
      exact ih s hs (hu.inv.2.2 s hs)

theorem at_sortG (p : List Bytes) {g : HGroup} (hu : Uniq g) :
    (sortG g).at? p = (g.at? p).map sortG := by
  induction p generalizing g with
  | nil => rfl
  | cons n p ih =>
    rw [at_cons, at_cons]
    have hnd : ((sortG g).subs.map (·.name)).Nodup := (sortG_subs_names g).nodup_iff.2 hu.inv.2.1
    cases hs : g.subs.find? (·.name == n) with
    | some s =>
      have hmem := List.mem_of_find?_eq_some hs
      have hname : s.name = n := by simpa using List.find?_some hs
      have := find_nodup (fun (s : HGroup) => s.name) (sortG g).subs hnd (x := sortG s)
        ((mem_sortG_subs _ _).2 ⟨s, hmem, rfl⟩)
      rw [sortG_name, hname] at this
      rw [this, Option.bind_some, Option.bind_some]
      exact ih (hu.inv.2.2 s hmem)
    | none =>
      rw [find_not_mem (fun (s : HGroup) => s.name)]
      · rfl
      · intro hm
        obtain ⟨s, hsm, he⟩ := List.mem_map.1 ((sortG_subs_names g).mem_iff.1 hm)
        have := List.find?_eq_none.1 hs s hsm
        simp [he] at this

theorem dimsOf_at (p : List Bytes) {g g' : HGroup} (h : g.at? p = some g') {d : Bytes}
    (hd : d ∈ dimsOf g') : d ∈ dimsOf g := by
  induction p generalizing g with
  | nil =>
    simp only [HGroup.at?, Option.some.injEq] at h
    rwa [h]
  | cons n p ih =>
    rw [at_cons] at h
    cases hs : g.subs.find? (·.name == n) with
    | none => rw [hs] at h; cases h
    | some s =>
      rw [hs, Option.bind_some] at h
      have hmem := List.mem_of_find?_eq_some hs
      have := ih h
      cases g with
      | mk i subs =>
      simp only [HGroup.subs] at hmem
      rw [dimsOf, List.mem_append]
      right
      clear hs h
      induction subs with
      | nil => simp at hmem
      | cons x subs ih2 =>
        rw [dimsOfL, List.mem_append]
        rcases List.mem_cons.1 hmem with rfl | hmem
        · exact .inl this
        · exact .inr (ih2 hmem)

theorem GroupAllowed.at {g g' : HGroup} {p : List Bytes} (h : GroupAllowed g) (hp : g.at? p = some g') :
    GroupAllowed g' := by
  induction p generalizing g with
  | nil => simp only [HGroup.at?, Option.some.injEq] at hp; exact hp ▸ h
  | cons n p ih =>
    rw [at_cons] at hp
    cases hs : g.subs.find? (·.name == n) with
    | none => rw [hs] at hp; cases hp
    | some s =>
      rw [hs, Option.bind_some] at hp
      exact ih (h.inv.2.2.2.2.2 s (List.mem_of_find?_eq_some hs)) hp

theorem NoScale.at {g g' : HGroup} {p : List Bytes} (h : NoScale g) (hp : g.at? p = some g') :
    NoScale g' := by
  induction p generalizing g with
  | nil => simp only [HGroup.at?, Option.some.injEq] at hp; exact hp ▸ h
  | cons n p ih =>
    rw [at_cons] at hp
    cases hs : g.subs.find? (·.name == n) with
    | none => rw [hs] at hp; cases hp
    | some s =>
      rw [hs, Option.bind_some] at hp
      exact ih (h.inv.2 s (List.mem_of_find?_eq_some hs)) hp

/-! ### The variables of a group in the file -/

/-- The variable `w` in the file stands for the variable `v` that was added. -/
inductive Stands (root : HGroup) (path : List Bytes) (v w : HVar) : Prop
  | same : w = v → v.isScale = false → (path = [] → v.name ∉ dimsOf root) → Stands root path v w
  | coord (i : Nat) : path = [] → v.name ∈ dimsOf root → w = promoted i v → CoordAllowed v →
      Stands root path v w

theorem Stands.name {root : HGroup} {path : List Bytes} {v w : HVar} (h : Stands root path v w) :
    w.name = v.name := by
  rcases h with ⟨rfl, _, _⟩ | ⟨i, _, _, rfl, _⟩ <;> rfl

theorem Stands.val {root : HGroup} {path : List Bytes} {v w : HVar} (h : Stands root path v w) :
    w.val = v.val := by
  rcases h with ⟨rfl, _, _⟩ | ⟨i, _, _, rfl, _⟩ <;> rfl

/-- The group `g` that was made, as the group `g'` in the file. -/
structure GroupAs (root : HGroup) (path : List Bytes) (g g' : HGroup) : Prop where
  subs : (g'.subs.map (·.name)).Perm (g.subs.map (·.name))
  attrs : ∃ post, g'.info.attrs.getD [] = g.info.attrs.getD [] ++ post ∧ ∀ p ∈ post, p = (ncpKey, ncpValue)
  few : ∃ post, g'.info.attrs.getD [] = g.info.attrs.getD [] ++ post ∧ post.length ≤ 1
  vars : ∀ v ∈ g.info.vars, ∃ w ∈ g'.info.vars, Stands root path v w
  back : ∀ w ∈ g'.info.vars, (∃ v ∈ g.info.vars, Stands root path v w) ∨
    (∃ i d s, w = synthetic i d s ∧ (∀ v ∈ g.info.vars, v.name ≠ d) ∧ path = [])

/-- Everything that is known of a written file. -/
structure WCtx (s : Src) (env : Env) (root root' : HGroup) (ds : List (Bytes × Nat)) (o : Obj) : Prop where
  allowed : FileStored root
  uniq : Uniq root
  noScale : NoScale root
  madeOK : MetaOK root root' ds
  written : Written s.file env root' o

/-- A written file without values of user-defined types. -/
structure Ctx (s : Src) (env : Env) (root root' : HGroup) (ds : List (Bytes × Nat)) (o : Obj) : Prop
    extends WCtx s env root root' ds o where
  noUser : NoUser root

variable {s : Src} {env : Env} {root root' : HGroup} {ds : List (Bytes × Nat)} {o : Obj}

theorem WCtx.dimName (c : WCtx s env root root' ds o) {v : HVar} (hv : v ∈ root.info.vars) :
    v.name ∈ ds.map (·.1) ↔ v.name ∈ dimsOf root := by
  rw [c.madeOK.dimName]
  have := c.allowed.group.inv.2.2.1 v.name (by
    rw [List.mem_append]
    exact .inl (List.mem_map.2 ⟨v, hv, rfl⟩))
  exact ⟨fun h => h.1, fun h => ⟨h, this.nonempty⟩⟩

theorem WCtx.rootAs (c : WCtx s env root root' ds o) : GroupAs root [] root (sortG root') := by
  refine ⟨?_, ?_, ?_, ?_, ?_⟩
  · have := sortG_subs_names root'
    rwa [c.madeOK.subs] at this
  · refine ⟨[(ncpKey, ncpValue)], ?_, by simp⟩
    rw [sortG_info]
    simp [c.madeOK.attrs]
  · refine ⟨[(ncpKey, ncpValue)], ?_, by simp⟩
    rw [sortG_info]
    simp [c.madeOK.attrs]
  · intro v hv
    by_cases hd : v.name ∈ ds.map (·.1)
    · obtain ⟨x, hx, he⟩ := List.mem_map.1 hd
      obtain ⟨k, hk⟩ := List.mem_iff_getElem?.1 hx
      refine ⟨promoted (0 + k) v, (mem_sortG_vars _ _).2 ((c.madeOK.vars.mem _).2 (.inr
        ⟨k, x.1, x.2, hk, .inl ⟨v, hv, he.symm, rfl⟩⟩)), ?_⟩
      have := (c.dimName hv).1 hd
      exact .coord _ rfl this rfl (c.allowed.coord v hv this)
    · exact ⟨v, (mem_sortG_vars _ _).2 ((c.madeOK.vars.mem v).2 (.inl ⟨hv, hd⟩)),
        .same rfl (c.noScale.inv.1 v hv) (fun _ h => hd ((c.dimName hv).2 h))⟩
  · intro w hw
    rw [mem_sortG_vars, c.madeOK.vars.mem] at hw
    rcases hw with ⟨hw, hd⟩ | ⟨k, d, sz, hk, ⟨v, hv, hn, rfl⟩ | ⟨hno, rfl⟩⟩
    · exact .inl ⟨w, hw, .same rfl (c.noScale.inv.1 w hw) (fun _ h => hd ((c.dimName hw).2 h))⟩
    · have hd : v.name ∈ ds.map (·.1) := by
        rw [hn]
        exact List.mem_map.2 ⟨_, List.mem_of_getElem? hk, rfl⟩
      have := (c.dimName hv).1 hd
      exact .inl ⟨v, hv, .coord _ rfl this rfl (c.allowed.coord v hv this)⟩
    · exact .inr ⟨_, d, sz, rfl, hno, rfl⟩

theorem groupAs_sub {path : List Bytes} (hp : path ≠ []) {g : HGroup} (hn : NoScale g) :
    GroupAs root path g (sortG g) := by
  refine ⟨sortG_subs_names g, ⟨[], ?_, by simp⟩, ⟨[], ?_, by simp⟩, ?_, ?_⟩
  · rw [sortG_info]; simp
  · rw [sortG_info]; simp
  · intro v hv
    exact ⟨v, (mem_sortG_vars _ _).2 hv, .same rfl (hn.inv.1 v hv) (fun h => absurd h hp)⟩
  · intro w hw
    rw [mem_sortG_vars] at hw
    exact .inl ⟨w, hw, .same rfl (hn.inv.1 w hw) (fun h => absurd h hp)⟩

theorem WCtx.uniq' (c : WCtx s env root root' ds o) : Uniq root' := by
  have h1 := c.madeOK.vars.nodup
  have h2 := c.madeOK.subs
  have hu := c.uniq
  cases root' with
  | mk i' subs' =>
    simp only [HGroup.subs] at h2
    subst h2
    exact .mk _ _ h1 hu.inv.2.1 hu.inv.2.2

theorem WCtx.tidy (c : WCtx s env root root' ds o) : Tidy (sortG root') := by
  obtain ⟨g1, g2, g3, g4, g5, g6⟩ := c.allowed.group.inv
  have hname : ∀ w ∈ root'.info.vars, w.name ≠ [] ∧ w.name ∉ root'.subs.map (·.name) := by
    intro w hw
    rw [c.madeOK.subs]
    rcases c.madeOK.var c.allowed hw with ⟨hw, _⟩ | ⟨_, _, hd⟩
    · exact ⟨(g3 w.name (by simp only [List.mem_append, List.mem_map]; exact .inl ⟨w, hw, rfl⟩)).nonempty, g4 w hw⟩
    · have := (c.madeOK.dimName _).1 hd
      exact ⟨this.2, (c.allowed.dims w.name this.1).2⟩
  refine Tidy.of ((sortG_names _).nodup_iff.2 (names_nodup c.uniq' (fun v hv => (hname v hv).2))) ?_ ?_ ?_
  · intro v hv
    rw [mem_sortG_vars] at hv
    exact (hname v hv).1
  · intro t ht
    obtain ⟨x, hx, rfl⟩ := (mem_sortG_subs _ _).1 ht
    rw [sortG_name]
    rw [c.madeOK.subs] at hx
    have := g3 x.name (by rw [List.mem_append]; exact .inr (List.mem_map.2 ⟨x, hx, rfl⟩))
    exact ⟨this.nonempty, this.noSlash⟩
  · intro t ht
    obtain ⟨x, hx, rfl⟩ := (mem_sortG_subs _ _).1 ht
    rw [c.madeOK.subs] at hx
    exact tidy_sort (g6 x hx) (c.uniq.inv.2.2 x hx)

/-- The groups of the file are those that were made. -/
theorem WCtx.group (c : WCtx s env root root' ds o) (names : List Bytes) :
    match root.at? names with
    | none => follow o names = none
    | some g => ∃ o' g', follow o names = some o' ∧ GroupObj (heapLookup s.file) s.file env g' o' ∧
        Tidy g' ∧ GroupAs root names g g' := by
  have h := follow_at names c.written.obj c.tidy
  cases names with
  | nil =>
    simp only [HGroup.at?] at h ⊢
    obtain ⟨o', h1, h2, h3⟩ := h
    exact ⟨o', _, h1, h2, h3, c.rootAs⟩
  | cons n p =>
    have he : root'.at? (n :: p) = root.at? (n :: p) := by
      rw [at_cons, at_cons, c.madeOK.subs]
    rw [at_sortG _ c.uniq', he] at h
    cases hg : root.at? (n :: p) with
    | none =>
      rw [hg] at h
      exact h
    | some g =>
      rw [hg] at h
      obtain ⟨o', h1, h2, h3⟩ := h
      exact ⟨o', _, h1, h2, h3, groupAs_sub (by simp) (c.noScale.at hg)⟩

/-! ### Which variables are found -/

theorem reserved_fullAttrs {v : HVar} (hv : AttrsAllowed v.attrs) (k : Bytes) (hk : k ∈ reservedKeys)
    (hl : k ≠ kDimList) : k ∉ (fullAttrs env v).map (·.1) := by
  rw [fullAttrs, List.map_append, List.mem_append, not_or]
  constructor
  · intro hm
    obtain ⟨p, hp, rfl⟩ := List.mem_map.1 hm
    exact (hv.each p hp).key hk
  · intro hm
    obtain ⟨p, hp, rfl⟩ := List.mem_map.1 hm
    exact hl (dimListPair_keys env v p hp)

theorem isScale_false {a : List Attr} (h : (classify a).hasClass = false ∨ (classify a).hasName = true) :
    (classify a).isScale = false := by
  rcases h with h | h <;> simp [ObjKind.isScale, h]

theorem dimListPair_scale {v : HVar} (h : v.isScale = true) : dimListPair env v = [] := by
  unfold dimListPair
  split
  · rfl
  · rw [if_neg (by simp [h])]

theorem promoted_attr_name (i : Nat) (v : HVar) (hv : AttrsAllowed v.attrs) :
    ∀ p ∈ fullAttrs env (promoted i v), p.1 = kName → p.2 = .str v.name := by
  intro p hp he
  rw [fullAttrs, dimListPair_scale rfl, List.append_nil] at hp
  simp only [promoted, Option.getD_some, List.mem_append, scaleAttrs, List.mem_cons, List.not_mem_nil,
    or_false] at hp
  rcases hp with (rfl | rfl | rfl) | hp
  · exact absurd he (by decide : kClass ≠ kName)
  · rfl
  · exact absurd he (by decide : kDimid ≠ kName)
  · exact absurd (show p.1 ∈ reservedKeys by rw [he]; decide) (hv.each p hp).key

theorem promoted_has_name (i : Nat) (v : HVar) : kName ∈ (fullAttrs env (promoted i v)).map (·.1) := by
  simp [fullAttrs, promoted, scaleAttrs]

theorem stands_class {path : List Bytes} {v w : HVar} (hs : Stands root path v w)
    (hv : AttrsAllowed v.attrs) {heap : HeapFn} {as : List Attr}
    (h : All2 (AttrHolds heap) as (fullAttrs env w)) : (classify as).isScale = false := by
  rcases hs with ⟨rfl, _, _⟩ | ⟨i, _, _, rfl, hc⟩
  · refine isScale_false (.inl ?_)
    rw [← Bool.not_eq_true, (classify_class h).1]
    exact reserved_fullAttrs hv kClass (by decide) (by decide)
  · refine isScale_false (.inr ?_)
    rw [classify_name h v.name (promoted_attr_name i v hv) (promoted_has_name i v)]
    have : dimMarker.isPrefixOf v.name = false := by
      rw [← Bool.not_eq_true, List.isPrefixOf_iff_prefix]
      exact hc.name
    rw [this]
    rfl

theorem marker_notAVariable (n : Nat) : dimMarker <+: notAVariable n := by
  refine List.IsPrefix.trans ?_ (List.prefix_append _ _)
  rw [← List.isPrefixOf_iff_prefix]
  decide

theorem synthetic_class (i : Nat) (d : Bytes) (n : Nat) {heap : HeapFn} {as : List Attr}
    (h : All2 (AttrHolds heap) as (fullAttrs env (synthetic i d n))) : (classify as).isScale = true := by
  have he : fullAttrs env (synthetic i d n) = scaleAttrs i (notAVariable n) := by
    rw [fullAttrs, dimListPair_scale rfl, List.append_nil]
    rfl
  rw [he] at h
  have h1 : (classify as).hasClass = true := (classify_class h).1.2 (by simp [scaleAttrs])
  have h2 : (classify as).hasCoordinates = false := by
    rw [← Bool.not_eq_true, (classify_class h).2]
    exact (by decide : kCoordinates ∉ [kClass, kName, kDimid])
  have h3 : (classify as).hasName = false := by
    rw [classify_name h (notAVariable n)]
    · have := marker_notAVariable n
      rw [← List.isPrefixOf_iff_prefix] at this
      rw [this]
      rfl
    · intro p hp he
      simp only [scaleAttrs, List.mem_cons, List.not_mem_nil, or_false] at hp
      rcases hp with rfl | rfl | rfl
      · exact absurd he (by decide : kClass ≠ kName)
      · rfl
      · exact absurd he (by decide : kDimid ≠ kName)
    · simp [scaleAttrs]
  simp [ObjKind.isScale, h1, h2, h3]

/-- Exactly the variables that were added are found. -/
theorem findVariable_ok {path : List Bytes} {g g' : HGroup} {G : Group}
    (hg : GroupObj (heapLookup s.file) s.file env g' G.obj) (ht : Tidy g') (ha : GroupAs root path g g')
    (hal : GroupAllowed g) :
    (∀ v ∈ g.info.vars, ∃ k w, G.findVariable v.name = some k ∧ w ∈ g'.info.vars ∧ Stands root path v w ∧
      VarAt (heapLookup s.file) s.file env k w ∧ k ∈ G.obj.kids) ∧
    (∀ n, n ∉ g.info.vars.map (·.name) → G.findVariable n = none) := by
  obtain ⟨vs, ss, hm⟩ := hg.members
  obtain ⟨c1, c2, c3⟩ := hm.child ht
  obtain ⟨g1, g2, g3, g4, g5, g6⟩ := hal.inv
  constructor
  · intro v hv
    obtain ⟨w, hw, hs⟩ := ha.vars v hv
    obtain ⟨k, hk, hva, hc⟩ := c1 w hw
    refine ⟨k, w, ?_, hw, hs, hva, by rw [hm.kids]; simp [hk]⟩
    rw [hs.name] at hc
    rw [Group.findVariable, hc]
    simp only [stands_class hs (g2 v hv).attrs hva.obj.attrs, hva.obj.dims]
    rfl
  · intro n hn
    rw [Group.findVariable]
    by_cases hmem : n ∈ g'.info.vars.map (·.name) ++ g'.subs.map (·.name)
    · rw [List.mem_append] at hmem
      rcases hmem with hmem | hmem
      · obtain ⟨w, hw, rfl⟩ := List.mem_map.1 hmem
        obtain ⟨k, hk, hva, hc⟩ := c1 w hw
        rcases ha.back w hw with ⟨v, hv, hs⟩ | ⟨i, d, sz, rfl, hno⟩
        · exact absurd (List.mem_map.2 ⟨v, hv, hs.name.symm⟩) hn
        · rw [hc]
          simp only [synthetic_class i d sz hva.obj.attrs, if_true]
      · obtain ⟨x, hx, rfl⟩ := List.mem_map.1 hmem
        obtain ⟨k, hk, hgo, hkn, hc⟩ := c2 x hx
        obtain ⟨_, _, hmx⟩ := hgo.members
        rw [hc]
        simp [hmx.info.dims]
    · rw [c3 n hmem]

/-! ### Attributes and dimensions -/

theorem undoScalar_eq (v : GoVal) : undoScalar v = oneOf v := by
  unfold undoScalar oneOf
  split
  · rfl
  · rename_i h
    split
    · rename_i h'
      exact absurd rfl (h _ _)
    · rfl

theorem getAttributes_shown (heap : HeapFn) (qs : List (Attr × Option GoVal)) (pre post : List (Bytes × GoVal))
    (as : HAttrs) (h : All2 (ParsedAs heap) qs (pre ++ as.getD [] ++ post)) (ha : AttrsAllowed as)
    (hpre : ∀ p ∈ pre, p.1 ∈ hiddenAttrs)
    (hpost : (∀ p ∈ post, p.1 ∈ hiddenAttrs) ∨ ∃ v, post = [(ncpKey, v)]) :
    getAttributes heap qs = .ok (shown as) := by
  have hkey : ∀ p ∈ as.getD [], p.1 ∉ hiddenAttrs ∧ p.1 ≠ ncpKey := by
    intro p hp
    have := (ha.each p hp).key
    constructor
    · intro hm
      apply this
      have : ∀ k ∈ hiddenAttrs, k ∈ reservedKeys := by decide
      exact this _ hm
    · rintro he
      apply this
      rw [he]
      decide
  have hv1 : visible pre = [] := by
    rw [visible, List.filter_eq_nil_iff]
    intro p hp
    simpa using hpre p hp
  have hv2 : visible (as.getD []) = as.getD [] := by
    rw [visible, List.filter_eq_self]
    intro p hp
    simpa using (hkey p hp).1
  have hfil : ((as.getD []).map fun p => (p.1, undoScalar p.2)).filter (fun p => p.1 ≠ ncpKey) = shown as := by
    have he : ((as.getD []).map fun p => (p.1, undoScalar p.2)) = shown as := by
      simp only [shown, undoScalar_eq]
    rw [he, List.filter_eq_self]
    intro q hq
    rw [shown] at hq
    obtain ⟨p, hp, rfl⟩ := List.mem_map.1 hq
    simpa using (hkey p hp).2
  rcases hpost with hpost | ⟨v, rfl⟩
  · have hv3 : visible post = [] := by
      rw [visible, List.filter_eq_nil_iff]
      intro p hp
      simpa using hpost p hp
    have hv : visible (pre ++ as.getD [] ++ post) = as.getD [] := by
      simp only [visible, List.filter_append] at hv1 hv2 hv3 ⊢
      rw [hv1, hv2, hv3]
      simp
    rw [getAttributes_ok heap qs _ h (by rw [hv]; exact ha.keys), hv, hfil]
  · have hv3 : visible [(ncpKey, v)] = [(ncpKey, v)] := by
      rw [visible, List.filter_eq_self]
      intro p hp
      rw [List.mem_singleton.1 hp]
      exact (by decide : (!hiddenAttrs.contains ncpKey) = true)
    have hv : visible (pre ++ as.getD [] ++ [(ncpKey, v)]) = as.getD [] ++ [(ncpKey, v)] := by
      simp only [visible, List.filter_append] at hv1 hv2 hv3 ⊢
      rw [hv1, hv2, hv3]
      simp
    have hnd : ((as.getD [] ++ [(ncpKey, v)]).map (·.1)).Nodup := by
      rw [List.map_append, List.nodup_append]
      refine ⟨ha.keys, by simp, ?_⟩
      intro a hm b hb e
      simp only [List.map_cons, List.map_nil, List.mem_singleton] at hb
      subst hb
      subst e
      obtain ⟨p, hp, he⟩ := List.mem_map.1 hm
      exact (hkey p hp).2 he
    rw [getAttributes_ok heap qs _ h (by rw [hv]; exact hnd), hv, List.map_append, List.filter_append, hfil]
    simp

theorem NoUser.inv {g : HGroup} (h : NoUser g) : (∀ p ∈ g.info.attrs.getD [], Common p.2) ∧
    (∀ v ∈ g.info.vars, Common v.val ∧ ∀ p ∈ v.attrs.getD [], Common p.2) ∧ ∀ s ∈ g.subs, NoUser s := by
  cases h with
  | mk i subs h1 h2 h3 => exact ⟨h1, h2, h3⟩

theorem NoUser.at {g g' : HGroup} {p : List Bytes} (h : NoUser g) (hp : g.at? p = some g') : NoUser g' := by
  induction p generalizing g with
  | nil => simp only [HGroup.at?, Option.some.injEq] at hp; exact hp ▸ h
  | cons n p ih =>
    rw [at_cons] at hp
    cases hs : g.subs.find? (·.name == n) with
    | none => rw [hs] at hp; cases hp
    | some s =>
      rw [hs, Option.bind_some] at hp
      exact ih (h.inv.2.2 s (List.mem_of_find?_eq_some hs)) hp

theorem cleanTree_of {g : HGroup} (h1 : CleanAttrs g.info.attrs)
    (h2 : ∀ v ∈ g.info.vars, CleanAttrs v.attrs) (h3 : ∀ s ∈ g.subs, CleanTree s) :
    CleanTree g := by
  cases g
  exact ⟨h1, h2, (cleanTrees_iff _).2 h3⟩

theorem reflist_free {as : HAttrs} (h : AttrsAllowed as) : kRefList ∉ (as.getD []).map (·.1) := by
  intro hm
  obtain ⟨p, hp, he⟩ := List.mem_map.1 hm
  exact (h.each p hp).key (by rw [he]; decide)

theorem clean_sort {g : HGroup} (h : GroupAllowed g) : NoUser g → CleanTree (sortG g) := by
  induction h with
  | mk i subs h1 h2 h3 h4 h5 h6 ih =>
    intro hn
    obtain ⟨n1, n2, n3⟩ := hn.inv
    refine cleanTree_of ?_ ?_ ?_
    · rw [sortG_info]
      exact ⟨reflist_free h1, n1⟩
    · intro v hv
      rw [mem_sortG_vars] at hv
      exact ⟨reflist_free (h2 v hv).attrs, (n2 v hv).2⟩
    · intro t ht
      obtain ⟨x, hx, rfl⟩ := (mem_sortG_subs _ _).1 ht
      exact ih x hx (n3 x hx)

theorem common_scaleAttrs (i : Nat) (n : Bytes) : ∀ p ∈ scaleAttrs i n, Common p.2 := by
  intro p hp
  simp only [scaleAttrs, List.mem_cons, List.not_mem_nil, or_false] at hp
  rcases hp with rfl | rfl | rfl <;> exact trivial

theorem Stands.common {path : List Bytes} {v w : HVar} (hs : Stands root path v w)
    (h : ∀ p ∈ v.attrs.getD [], Common p.2) : ∀ p ∈ w.attrs.getD [], Common p.2 := by
  rcases hs with ⟨rfl, _, _⟩ | ⟨i, _, _, rfl, _⟩
  · exact h
  · intro p hp
    simp only [promoted, Option.getD_some, List.mem_append] at hp
    rcases hp with hp | hp
    · exact common_scaleAttrs i _ p hp
    · exact h p hp

theorem Ctx.clean (c : Ctx s env root root' ds o) : CleanTree (sortG root') := by
  obtain ⟨g1, g2, g3, g4, g5, g6⟩ := c.allowed.group.inv
  obtain ⟨n1, n2, n3⟩ := c.noUser.inv
  have hr := c.rootAs
  refine cleanTree_of ?_ ?_ ?_
  · obtain ⟨post, he, hp⟩ := hr.attrs
    constructor
    · rw [he, List.map_append, List.mem_append, not_or]
      refine ⟨reflist_free g1, ?_⟩
      intro hm
      obtain ⟨p, hpm, hk⟩ := List.mem_map.1 hm
      rw [hp p hpm] at hk
      exact absurd hk (by decide : ncpKey ≠ kRefList)
    · rw [he]
      intro p hpm
      rcases List.mem_append.1 hpm with hpm | hpm
      · exact n1 p hpm
      · rw [hp p hpm]
        exact trivial
  · intro w hw
    rcases hr.back w hw with ⟨v, hv, hs⟩ | ⟨i, d, sz, rfl, _⟩
    · refine ⟨?_, hs.common (n2 v hv).2⟩
      rcases hs with ⟨rfl, _, _⟩ | ⟨i, _, _, rfl, _⟩
      · exact reflist_free (g2 _ hv).attrs
      · simp only [promoted, Option.getD_some, List.map_append, List.mem_append, not_or]
        exact ⟨(by decide : kRefList ∉ [kClass, kName, kDimid]), reflist_free (g2 _ hv).attrs⟩
    · refine ⟨(by decide : kRefList ∉ [kClass, kName, kDimid]), ?_⟩
      intro p hp
      simp only [synthetic, Option.getD_some, List.mem_cons, List.not_mem_nil, or_false] at hp
      rcases hp with rfl | rfl | rfl <;> exact trivial
  · intro t ht
    obtain ⟨x, hx, rfl⟩ := (mem_sortG_subs _ _).1 ht
    rw [c.madeOK.subs] at hx
    exact clean_sort (g6 x hx) (n3 x hx)

/-- A dimension has a place. -/
theorem WCtx.scaleAt (c : WCtx s env root root' ds o) {d : Bytes} (hd : d ∈ dimsOf root) (hne : d ≠ []) :
    ∃ k ∈ o.kids, k.info.name = d ∧ env.dimAddrs.get d = some k.info.addr ∧ k.info.addr < 2 ^ 63 := by
  have hm := (c.madeOK.dimName d).2 ⟨hd, hne⟩
  obtain ⟨x, hx, he⟩ := List.mem_map.1 hm
  obtain ⟨n, hn⟩ := List.mem_iff_getElem?.1 hx
  obtain ⟨w, hw, hwn, hws⟩ : ∃ w ∈ root'.info.vars, w.name = d ∧ w.isScale = true := by
    by_cases hv : ∃ v ∈ root.info.vars, v.name = d
    · obtain ⟨v, hv, rfl⟩ := hv
      exact ⟨promoted (0 + n) v, (c.madeOK.vars.mem _).2 (.inr ⟨n, x.1, x.2, hn, .inl ⟨v, hv, he.symm, rfl⟩⟩),
        rfl, rfl⟩
    · exact ⟨synthetic (0 + n) x.1 x.2, (c.madeOK.vars.mem _).2 (.inr ⟨n, x.1, x.2, hn,
        .inr ⟨fun v hvm e => hv ⟨v, hvm, e.trans he⟩, rfl⟩⟩), he, rfl⟩
  obtain ⟨k, hk, hkn, hget⟩ := c.written.scale w hw hws
  rw [hwn] at hkn hget
  exact ⟨k, hk, hkn, hget, c.written.scales d _ hget⟩

theorem all2_split {α β : Type} {R : α → β → Prop} {xs : List α} {ys zs : List β}
    (h : All2 R xs (ys ++ zs)) : ∃ as bs, xs = as ++ bs ∧ All2 R as ys ∧ All2 R bs zs := by
  induction ys generalizing xs with
  | nil => exact ⟨[], xs, rfl, All2.nil _, h⟩
  | cons y ys ih =>
    cases xs with
    | nil => exact absurd h.1 (by simp)
    | cons x xs =>
      obtain ⟨h1, h2⟩ := h.of_cons
      obtain ⟨as, bs, rfl, h3, h4⟩ := ih h2
      exact ⟨x :: as, bs, rfl, h3.cons h1, h4⟩

theorem all2_single {α β : Type} {R : α → β → Prop} {xs : List α} {y : β}
    (h : All2 R xs [y]) : ∃ x, xs = [x] ∧ R x y := by
  cases xs with
  | nil => exact absurd h.1 (by simp)
  | cons x xs =>
    obtain ⟨h1, h2⟩ := h.of_cons
    cases xs with
    | nil => exact ⟨x, rfl, h1⟩
    | cons _ _ => exact absurd h2.1 (by simp)

/-- The names of dimensions that are read. -/
theorem Ctx.dims (c : Ctx s env root root' ds o) {path : List Bytes} {v w : HVar}
    (hs : Stands root path v w) (hv : VarAllowed v) (hd : ∀ d ∈ v.dims, d ∈ dimsOf root)
    (qs : List (Attr × Option GoVal)) (h : All2 (ParsedAs (heapLookup s.file)) qs (fullAttrs env w)) :
    getDimensions (heapLookup s.file) o qs = .ok (dimsRead root path v) := by
  have htree := parseTree_ok c.written.obj c.clean
  rcases hs with ⟨rfl, hsc, hp⟩ | ⟨i, hp, hdim, rfl, hc⟩
  · have hno : ¬ (path = [] ∧ w.name ∈ dimsOf root) := fun e => hp e.1 e.2
    rw [dimsRead, if_neg hno]
    have hname := nameDims_none _ qs _ h (reserved_fullAttrs hv.attrs kName (by decide) (by decide))
    by_cases hcase : w.dims ≠ [] ∧ [] ∉ w.dims
    · rw [if_neg hcase.2]
      have hpair : dimListPair env w = [(kDimList, dimRefs env.dimAddrs w.dims)] := by
        unfold dimListPair
        cases hh : env.heap with
        | none => exact absurd hh c.written.heap
        | some H =>
          simp only
          rw [if_pos]
          refine ⟨hsc, hcase.1, ?_⟩
          rw [List.all_eq_true]
          intro d hdm
          have hne : d ≠ [] := fun e => hcase.2 (e ▸ hdm)
          obtain ⟨k, _, _, hget, _⟩ := c.scaleAt (hd d hdm) hne
          simp [hne, hget]
      rw [fullAttrs, hpair] at h
      obtain ⟨as, bs, rfl, h1, h2⟩ := all2_split h
      obtain ⟨q, rfl, hq⟩ := all2_single h2
      have hn1 := listedDims_none (addrIndex o) _ as _ h1 (by
        intro hm
        obtain ⟨p, hpm, he⟩ := List.mem_map.1 hm
        exact (hv.attrs.each p hpm).key (by rw [he]; decide))
      have hn2 : listedDims (addrIndex o) [q] = .ok w.dims := by
        obtain ⟨a, x⟩ := q
        have hx : x = some (dimRefs env.dimAddrs w.dims) := hq.list rfl
        have ha : a.name = kDimList := hq.name
        rw [listedDims, if_pos ha, hx, dimRefs_names o c.written.nodup]
        · simp [listedDims]
        · intro d hdm
          have hne : d ≠ [] := fun e => hcase.2 (e ▸ hdm)
          exact ⟨hne, c.scaleAt (hd d hdm) hne⟩
      rw [getDimensions, listedDims_append _ _ _ hn1, hn2]
      cases hwd : w.dims with
      | nil => exact absurd hwd hcase.1
      | cons d ds => rfl
    · have hpair : dimListPair env w = [] := by
        unfold dimListPair
        split
        · rfl
        · rw [if_neg]
          rintro ⟨_, h1, h2⟩
          rw [List.all_eq_true] at h2
          refine hcase ⟨h1, fun hm => ?_⟩
          have := h2 _ hm
          simp at this
      have hres : (if [] ∈ w.dims then [] else w.dims) = [] := by
        split
        · rfl
        · rename_i hn
          by_cases hw : w.dims = []
          · exact hw
          · exact absurd ⟨hw, hn⟩ hcase
      rw [hres]
      have hn := listedDims_none (addrIndex o) _ qs _ h (by
        rw [fullAttrs, hpair, List.append_nil]
        intro hm
        obtain ⟨p, hpm, he⟩ := List.mem_map.1 hm
        exact (hv.attrs.each p hpm).key (by rw [he]; decide))
      rw [getDimensions, hn]
      simp only [htree, hname]
  · rw [dimsRead, if_pos ⟨hp, hdim⟩]
    have hn := listedDims_none (addrIndex o) _ qs _ h (by
      rw [fullAttrs, dimListPair_scale rfl, List.append_nil]
      simp only [promoted, Option.getD_some, List.map_append, List.mem_append, not_or]
      refine ⟨(by decide : kDimList ∉ [kClass, kName, kDimid]), ?_⟩
      intro hm
      obtain ⟨p, hpm, he⟩ := List.mem_map.1 hm
      exact (hv.attrs.each p hpm).key (by rw [he]; decide))
    rw [getDimensions, hn]
    simp only [htree]
    exact nameDims_name _ qs _ h v.name (promoted_attr_name i v hv.attrs) (promoted_has_name i v) hc.name

/-- The attributes that are read. -/
theorem stands_attrs {path : List Bytes} {v w : HVar} (hs : Stands root path v w) (hv : VarAllowed v)
    (heap : HeapFn) (qs : List (Attr × Option GoVal)) (h : All2 (ParsedAs heap) qs (fullAttrs env w)) :
    getAttributes heap qs = .ok (shown v.attrs) := by
  rcases hs with ⟨rfl, hsc, hp⟩ | ⟨i, hp, hdim, rfl, hc⟩
  · refine getAttributes_shown heap qs [] (dimListPair env w) w.attrs h hv.attrs (by simp) (.inl ?_)
    intro p hp
    rw [dimListPair_keys env w p hp]
    decide
  · refine getAttributes_shown heap qs (scaleAttrs i v.name) [] v.attrs ?_ hv.attrs ?_ (.inl (by simp))
    · rw [List.append_nil]
      rw [fullAttrs, dimListPair_scale rfl, List.append_nil] at h
      exact h
    · intro p hp
      simp only [scaleAttrs, List.mem_cons, List.not_mem_nil, or_false] at hp
      rcases hp with rfl | rfl | rfl
      · exact (by decide : kClass ∈ hiddenAttrs)
      · exact (by decide : kName ∈ hiddenAttrs)
      · exact (by decide : kDimid ∈ hiddenAttrs)

theorem Ctx.varMeta (c : Ctx s env root root' ds o) {path : List Bytes} {v w : HVar} {k : Obj}
    (hs : Stands root path v w) (hv : VarAllowed v) (hc : ∀ p ∈ v.attrs.getD [], Common p.2)
    (hd : ∀ d ∈ v.dims, d ∈ dimsOf root) (hk : VarAt (heapLookup s.file) s.file env k w) :
    varMeta s o k = .ok (dimsRead root path v, shown v.attrs) := by
  obtain ⟨qs, h1, h2, _⟩ := parseAttrs_ok _ _ _ _ hk.obj.attrs hk.obj.fill (common_fullAttrs (hs.common hc))
  simp only [H5.varMeta, h1, c.dims hs hv hd qs h2, stands_attrs hs hv _ qs h2]

/-! ### What calls leave behind -/

mutual
/-- All objects of a tree. -/
def allObjs : Obj → List Obj
  | .mk i kids => .mk i kids :: allObjsL kids
/-- Of several trees. -/
def allObjsL : List Obj → List Obj
  | [] => []
  | o :: os => allObjs o ++ allObjsL os
end

theorem allObjs_addr (o : Obj) : (allObjs o).map (·.info.addr) = o.info.addr :: addrsBelow o := by
  have hL : ∀ os, (∀ o ∈ os, (allObjs o).map (·.info.addr) = o.info.addr :: addrsBelow o) →
      (allObjsL os).map (·.info.addr) = addrsBelowL os := by
    intro os
    induction os with
    | nil => intro _; rfl
    | cons o os ih =>
      intro h
      rw [allObjsL, addrsBelowL, List.map_append, h o (by simp), ih (fun x hx => h x (by simp [hx]))]
  induction o using Obj.rec (motive_2 := fun os => ∀ o ∈ os, (allObjs o).map (·.info.addr) = o.info.addr :: addrsBelow o) with
  | mk i kids ih =>
    rw [allObjs, List.map_cons, hL kids ih]
    rfl
  | nil => rename_i h; simp at h
  | cons o os h1 h2 =>
    rename_i x hx
    rcases List.mem_cons.1 hx with rfl | hx
    · exact h1
    · exact h2 x hx

theorem self_mem_allObjs (o : Obj) : o ∈ allObjs o := by
  cases o
  simp [allObjs]

theorem mem_allObjsL {os : List Obj} {k x : Obj} (hk : k ∈ os) (hx : x ∈ allObjs k) : x ∈ allObjsL os := by
  induction os with
  | nil => simp at hk
  | cons o os ih =>
    rw [allObjsL, List.mem_append]
    rcases List.mem_cons.1 hk with rfl | hk
    · exact .inl hx
    · exact .inr (ih hk)

theorem kid_mem_allObjs {o k x : Obj} (hk : k ∈ o.kids) (hx : x ∈ allObjs k) : x ∈ allObjs o := by
  cases o
  rw [allObjs]
  exact List.mem_cons_of_mem _ (mem_allObjsL hk hx)

theorem follow_mem {o o' : Obj} (p : List Bytes) (h : follow o p = some o') {x : Obj} (hx : x ∈ allObjs o') :
    x ∈ allObjs o := by
  induction p generalizing o with
  | nil =>
    rw [follow] at h
    split at h
    · cases h
      exact hx
    · cases h
  | cons n p ih =>
    rw [follow] at h
    split at h
    · split at h
      · rename_i c hc
        exact kid_mem_allObjs (List.mem_of_find?_eq_some hc) (ih h)
      · cases h
    · cases h

theorem addr_inj {α β : Type} (f : α → β) (l : List α) (h : (l.map f).Nodup) {x y : α} (hx : x ∈ l)
    (hy : y ∈ l) (he : f x = f y) : x = y := by
  induction l with
  | nil => simp at hx
  | cons a l ih =>
    rw [List.map_cons, List.nodup_cons] at h
    rcases List.mem_cons.1 hx with rfl | hx
    · rcases List.mem_cons.1 hy with rfl | hy
      · rfl
      · exact absurd (he ▸ List.mem_map_of_mem hy) h.1
    · rcases List.mem_cons.1 hy with rfl | hy
      · exact absurd (List.mem_map.2 ⟨x, by assumption, he⟩) h.1
      · exact ih h.2 hx hy

/-- No object has been sliced or has lost blocks. -/
def Fresh (o : Obj) (t : VTab) : Prop :=
  ∀ k ∈ allObjs o, t.of k = ⟨none, k.info.blocks.map Block.toD⟩

theorem fresh_nil (o : Obj) : Fresh o [] := fun _ _ => rfl

/-- The group that `GetGroup` returns. -/
theorem getGroup_root (o : Obj) (path : Bytes) (hgrp : o.info.isGroup = true) (hno : o.child [] = none) : (∃ names, PathOf names path ∧
    (rootGroup o).getGroup path = lookup (rootGroup o) o [47] names) ∨
    (rootGroup o).getGroup path = .err .notFound := by
  obtain ⟨names, hp⟩ := C39_every_path path
  by_cases ha : path.head? = some 47
  · exact .inl ⟨names, hp, C39_absolute (rootGroup o) path names hp ha⟩
  · by_cases hn : path = []
    · right
      subst hn
      have h1 : ([slash] : Bytes) ≠ [slash] ++ [] ++ [slash] := by simp
      have h2 : (splitSlash (([slash] ++ [] ++ [slash] : Bytes).drop ([slash] : Bytes).length)).headD [] = [] := by
        simp [splitSlash]
      have hc : canonicalizePath [] = [] := by simp [canonicalizePath, splitSlash, joinSlash]
      simp only [Group.getGroup, hc, rootGroup, List.head?_nil, reduceCtorEq, if_false]
      rw [show ([slash] ++ [] ++ [slash] : Bytes).length + 2 = 3 + 1 from rfl, sgDescend,
        if_neg (by simp [hgrp]), if_neg h1, if_neg (by simp), h2, hno]
    · exact .inl ⟨names, hp, C39_relative_partial (rootGroup o) path names hp ha hn⟩

theorem WCtx.varDims (c : WCtx s env root root' ds o) {names : List Bytes} {g : HGroup}
    (hat : root.at? names = some g) {v : HVar} (hv : v ∈ g.info.vars) : ∀ d ∈ v.dims, d ∈ dimsOf root := by
  intro d hd
  refine dimsOf_at names hat ?_
  cases g
  rw [dimsOf, List.mem_append]
  exact .inl (List.mem_flatMap.2 ⟨v, hv, hd⟩)

/-- Reading a variable. -/
theorem Ctx.getVariable (c : Ctx s env root root' ds o) {names : List Bytes} {g g' : HGroup} {G : Group}
    (hat : root.at? names = some g) (hroot : G.root = o) (hfo : follow o names = some G.obj)
    (hg : GroupObj (heapLookup s.file) s.file env g' G.obj) (ht : Tidy g') (ha : GroupAs root names g g')
    {t : VTab} (hf : Fresh o t) :
    (∀ v ∈ g.info.vars, ∃ k ∈ allObjs o, G.getVariable s t v.name =
      (t.put k ⟨none, k.info.blocks.map Block.toD⟩, .ok ⟨v.val, dimsRead root names v, shown v.attrs⟩)) ∧
    (∀ n, n ∉ g.info.vars.map (·.name) → G.getVariable s t n = (t, .err .notFound)) := by
  have hal := c.allowed.group.at hat
  obtain ⟨h1, h2⟩ := findVariable_ok hg ht ha hal
  constructor
  · intro v hv
    obtain ⟨k, w, hk, hw, hs, hva, hmem⟩ := h1 v hv
    have hko : k ∈ allObjs o := follow_mem names hfo (kid_mem_allObjs hmem (self_mem_allObjs k))
    refine ⟨k, hko, ?_⟩
    have hnu := (c.noUser.at hat).inv.2.1 v hv
    have hd := objData_ok s w _ k hva.obj (by rw [hs.val]; exact hnu.1) (t.of k) (hf k hko)
    have hm := c.varMeta hs (hal.inv.2.1 v hv) hnu.2 (c.varDims hat hv) hva
    rw [Group.getVariable, hk]
    simp only [hd, hroot, hm, Res.map]
    rw [hf k hko, hs.val]
  · intro n hn
    rw [Group.getVariable, h2 n hn]

theorem fresh_put (hnd : (o.info.addr :: addrsBelow o).Nodup) {t : VTab} (hf : Fresh o t) {k : Obj}
    (hk : k ∈ allObjs o) : Fresh o (t.put k ⟨none, k.info.blocks.map Block.toD⟩) := by
  intro x hx
  rw [VTab.of, VTab.put, List.lookup_cons]
  by_cases he : x.info.addr = k.info.addr
  · have : x = k := addr_inj (·.info.addr) (allObjs o) (by rw [allObjs_addr]; exact hnd) hx hk he
    simp [this]
  · have : (x.info.addr == k.info.addr) = false := by simpa using he
    rw [this]
    exact hf x hx

theorem WCtx.noEmpty (c : WCtx s env root root' ds o) : o.info.isGroup = true ∧ o.child [] = none := by
  obtain ⟨vs, ss, hm⟩ := c.written.obj.members
  refine ⟨hm.info.grp, (hm.child c.tidy).2.2 [] ?_⟩
  rw [List.mem_append, not_or]
  constructor
  · intro h
    obtain ⟨v, hv, he⟩ := List.mem_map.1 h
    exact c.tidy.inv.2.1 v hv he
  · intro h
    obtain ⟨v, hv, he⟩ := List.mem_map.1 h
    exact (c.tidy.inv.2.2.1 v hv).1 he

theorem Ctx.freshOne (c : Ctx s env root root' ds o) {t : VTab} (hf : Fresh o t) (r : Bytes × Bytes) :
    Fresh o (readOne s o t r) := by
  unfold readOne
  rcases getGroup_root o r.1 c.noEmpty.1 c.noEmpty.2 with ⟨names, hp, he⟩ | he
  · rw [he]
    have hgrp := c.group names
    cases hat : root.at? names with
    | none =>
      rw [hat] at hgrp
      simp only at hgrp
      simp only [lookup, hgrp]
      exact hf
    | some g =>
      rw [hat] at hgrp
      obtain ⟨o', g', h1, h2, h3, h4⟩ := hgrp
      simp only [lookup, h1]
      generalize hG : ({ root := (rootGroup o).root, obj := o', name := [47] ++ names.flatMap (fun x => x ++ [47]) } : Group) = G
      have hobj : G.obj = o' := by rw [← hG]
      have hroot : G.root = o := by rw [← hG]; rfl
      obtain ⟨k1, k2⟩ := c.getVariable hat hroot (hobj ▸ h1) (hobj ▸ h2) h3 h4 hf
      by_cases hn : r.2 ∈ g.info.vars.map (·.name)
      · obtain ⟨v, hv, hvn⟩ := List.mem_map.1 hn
        obtain ⟨k, hk, hr⟩ := k1 v hv
        rw [hvn] at hr
        rw [hr]
        exact fresh_put c.written.nodup hf hk
      · rw [k2 _ hn]
        exact hf
  · rw [he]
    exact hf

theorem Ctx.freshAll (c : Ctx s env root root' ds o) (rs : ReadCalls) : Fresh o (readAll s o rs) := by
  have : ∀ t, Fresh o t → Fresh o (rs.foldl (readOne s o) t) := by
    induction rs with
    | nil => exact fun t h => h
    | cons r rs ih => exact fun t h => ih _ (c.freshOne h r)
  exact this [] (fresh_nil o)

/-! ### Everything -/

theorem perm_of_mem {xs ys : List Bytes} (hx : xs.Nodup) (hy : ys.Nodup) (h : ∀ a, a ∈ xs ↔ a ∈ ys) :
    xs.Perm ys := by
  induction xs generalizing ys with
  | nil =>
    cases ys with
    | nil => exact .nil
    | cons y ys => exact absurd ((h y).2 (by simp)) (by simp)
  | cons x xs ih =>
    rw [List.nodup_cons] at hx
    have hm : x ∈ ys := (h x).1 (by simp)
    refine (List.Perm.cons x (ih (ys := ys.erase x) hx.2 (hy.erase x) ?_)).trans (List.perm_cons_erase hm).symm
    intro a
    rw [hy.mem_erase_iff]
    constructor
    · intro ha
      exact ⟨fun e => hx.1 (e ▸ ha), (h a).1 (by simp [ha])⟩
    · rintro ⟨hne, ha⟩
      have := (h a).2 ha
      rw [List.mem_cons] at this
      rcases this with e | ha
      · exact absurd e hne
      · exact ha

/-- The names that are listed. -/
theorem WCtx.lists (c : WCtx s env root root' ds o) {names : List Bytes} {g g' : HGroup} {o' : Obj} {G : Group}
    (hat : root.at? names = some g) (hroot : G.root = o) (hobj : G.obj = o') (hname : G.name = slash :: dirs names)
    (hns : ∀ n ∈ names, slash ∉ n) (h1 : follow o names = some o')
    (h2 : GroupObj (heapLookup s.file) s.file env g' o') (h3 : Tidy g') (h4 : GroupAs root names g g') :
    G.listVariables.Perm (g.info.vars.map (·.name)) ∧ ∃ l, G.listSubgroups = .ok l ∧ l.Perm (g.subs.map (·.name)) := by
  have hal := c.allowed.group.at hat
  obtain ⟨f1, f2⟩ := findVariable_ok (G := G) (hobj ▸ h2) h3 h4 hal
  obtain ⟨vs, ss, hm⟩ := h2.members
  constructor
  · have hl : G.listVariables = (o'.kids.map (·.info.name)).filter fun n => (G.findVariable n).isSome := by
      rw [Group.listVariables, hroot]
      refine varDescend_on G names [] _ o o' hname hns c.written.obj c.tidy h1 ?_
      intro x hx
      have : x.info.name ∈ o'.kids.map (·.info.name) := List.mem_map_of_mem hx
      rw [hm.names, List.mem_append] at this
      rcases this with h | h
      · obtain ⟨v, hv, he⟩ := List.mem_map.1 h
        rw [← he]
        exact h3.inv.2.1 v hv
      · obtain ⟨v, hv, he⟩ := List.mem_map.1 h
        rw [← he]
        exact (h3.inv.2.2.1 v hv).1
    rw [hl, hm.names]
    refine perm_of_mem (h3.inv.1.filter _) (c.uniq.at hat).inv.1 ?_
    intro a
    rw [List.mem_filter]
    constructor
    · rintro ⟨_, hs⟩
      by_cases ha : a ∈ g.info.vars.map (·.name)
      · exact ha
      · rw [f2 a ha] at hs
        cases hs
    · intro ha
      obtain ⟨v, hv, rfl⟩ := List.mem_map.1 ha
      obtain ⟨k, w, hk, hw, hs, _, _⟩ := f1 v hv
      refine ⟨?_, by rw [hk]; rfl⟩
      rw [List.mem_append]
      exact .inl (List.mem_map.2 ⟨w, hw, hs.name⟩)
  · refine ⟨g'.subs.map (·.name), ?_, h4.subs⟩
    rw [Group.listSubgroups, hroot, hname]
    exact subDescend_on names [] _ g' o o' hns c.written.obj c.tidy h1 h2 h3

theorem Ctx.reads (c : Ctx s env root root' ds o) (names : List Bytes) (path : Bytes) (hp : PathOf names path)
    (habs : path.head? = some 47) (rs : ReadCalls) :
    match root.at? names with
    | none => (rootGroup o).getGroup path = .err .notFound
    | some g => ∃ G, (rootGroup o).getGroup path = .ok G ∧ GroupReads s root names g G (readAll s o rs) := by
  have hC := C39_absolute (rootGroup o) path names hp habs
  have hgrp := c.group names
  cases hat : root.at? names with
  | none =>
    rw [hat] at hgrp
    simp only at hgrp
    rw [hC, lookup]
    simp only [rootGroup, hgrp]
  | some g =>
    rw [hat] at hgrp
    obtain ⟨o', g', h1, h2, h3, h4⟩ := hgrp
    refine ⟨{ root := o, obj := o', name := slash :: dirs names }, ?_, ?_⟩
    · rw [hC, lookup]
      simp only [rootGroup, h1]
      rfl
    generalize hG : ({ root := o, obj := o', name := slash :: dirs names } : Group) = G
    have hobj : G.obj = o' := by rw [← hG]
    have hroot : G.root = o := by rw [← hG]
    have hname : G.name = slash :: dirs names := by rw [← hG]
    have hal := c.allowed.group.at hat
    have hns : ∀ n ∈ names, slash ∉ n := fun n hn => (hp.names n hn).2
    obtain ⟨k1, k2⟩ := c.getVariable hat hroot (hobj ▸ h1) (hobj ▸ h2) h3 h4 (c.freshAll rs)
    obtain ⟨vs, ss, hm⟩ := h2.members
    refine ⟨?_, ?_, ?_, ?_, ?_⟩
    · exact (c.lists hat hroot hobj hname hns h1 h2 h3 h4).1
    · exact (c.lists hat hroot hobj hname hns h1 h2 h3 h4).2
    · have hcom : ∀ p ∈ g'.info.attrs.getD [], Common p.2 := by
        obtain ⟨post, he, hpost⟩ := h4.attrs
        rw [he]
        intro p hpm
        rcases List.mem_append.1 hpm with hpm | hpm
        · exact (c.noUser.at hat).inv.1 p hpm
        · rw [hpost p hpm]
          exact trivial
      obtain ⟨qs, q1, q2, _⟩ := parseAttrs_ok _ _ _ _ hm.info.attrs hm.info.fill hcom
      rw [Group.attributes, hobj, q1]
      simp only
      obtain ⟨post, he, hpost⟩ := h4.attrs
      obtain ⟨post', he', hlen⟩ := h4.few
      have hpp : post = post' := List.append_cancel_left (he.symm.trans he')
      suffices hsuf : getAttributes (heapLookup s.file) qs = .ok (shown g.info.attrs) by rw [hsuf]; rfl
      refine getAttributes_shown _ qs [] post g.info.attrs (by rw [List.nil_append, ← he]; exact q2)
        hal.inv.1 (by simp) ?_
      subst hpp
      cases post with
      | nil => exact .inl (by simp)
      | cons p ps =>
        cases ps with
        | nil => exact .inr ⟨ncpValue, by rw [hpost p (by simp)]⟩
        | cons q ps => simp only [List.length_cons] at hlen; omega
    · intro v hv
      obtain ⟨k, _, hr⟩ := k1 v hv
      rw [hr]
    · intro n hn
      rw [k2 n hn]

/-- Every file that may be written is written. -/
theorem file_stored (u : UniTables) (cs : List HCall) (ord : Order) (hord : OrderOK ord)
    (ha : FileStored (runCalls u cs)) :
    ∃ file, closeFile false ord (runCalls u cs) = .ok file ∧ (file.length < 2 ^ 63 →
      ∃ env root' ds o, OpensTo file o ∧ ∀ inflate fuel,
        WCtx ⟨inflate, fuel, file⟩ env (runCalls u cs) root' ds o) := by
  have hu := uniq_runCalls u cs
  have hn := noScale_runCalls u cs
  obtain ⟨root', ds, hm, hok⟩ := addMetadata_ok _ ha hu hn
  obtain ⟨file, env, hc, hw⟩ := closeFile_ok ord _ root' hm (hok.closeReady ha hu hn ord hord)
  refine ⟨file, hc, fun hl => ?_⟩
  obtain ⟨o, ho⟩ := hw hl
  exact ⟨env, root', ds, o, ho.opens, fun _ _ => ⟨ha, hu, hn, hok, ho⟩⟩

/-- And read. -/
theorem file_reads (u : UniTables) (cs : List HCall) (ord : Order) (hord : OrderOK ord)
    (ha : FileAllowed (runCalls u cs)) :
    ∃ file, closeFile false ord (runCalls u cs) = .ok file ∧ (file.length < 2 ^ 63 →
      ∃ env root' ds o, OpensTo file o ∧ ∀ inflate fuel,
        Ctx ⟨inflate, fuel, file⟩ env (runCalls u cs) root' ds o) := by
  obtain ⟨file, h1, h2⟩ := file_stored u cs ord hord ha.toFileStored
  refine ⟨file, h1, fun hl => ?_⟩
  obtain ⟨env, root', ds, o, h3, h4⟩ := h2 hl
  exact ⟨env, root', ds, o, h3, fun i f => ⟨h4 i f, ha.noUser⟩⟩

end Verif.H5
