import Verif.Lemmas.H5Slices
import Verif.Spec.H5Dims
/-!
The dimensions of a written file.
-/
namespace Verif.H5

mutual
theorem getDimsLimited_take : ∀ (v : GoVal) (n : Nat), getDimsLimited v n = (getDims v).take n
  | .slice _ xs, n => by
    rw [getDimsLimited, getDims]
    cases n with
    | zero => rfl
    | succ n => rw [if_neg (by omega), List.take_succ_cons, getDimsLimitedHead_take xs, Nat.add_sub_cancel]
  | .num .., n => by simp [getDimsLimited, getDims]
  | .str .., n => by simp [getDimsLimited, getDims]
  | .other .., n => by simp [getDimsLimited, getDims]
  | .user v, n => by rw [getDimsLimited, getDims, getDimsT_take]
theorem getDimsLimitedHead_take : ∀ (xs : List GoVal) (n : Nat), getDimsLimitedHead xs n = (getDimsHead xs).take n
  | [], n => by simp [getDimsLimitedHead, getDimsHead]
  | x :: _, n => by rw [getDimsLimitedHead, getDimsHead, getDimsLimited_take x]
end

mutual
theorem visits_at (path : List Bytes) (g : HGroup) (hu : Uniq g) (p : List Bytes) (v : HVar)
    (h : Visit.var p v ∈ visits path g) : g.Has v := by
  match g with
  | .mk i subs =>
    simp only [visits, List.mem_append, List.mem_map, List.mem_singleton] at h
    rcases h with (⟨w, hw, he⟩ | h) | h
    · cases he
      exact ⟨[], _, rfl, hw⟩
    · cases h
    · obtain ⟨s, hs, q, g', h1, h2⟩ := visitsL_at path subs (fun s hs => hu.inv.2.2 s hs) p v h
      refine ⟨s.name :: q, g', ?_, h2⟩
      rw [at_cons]
      have := find_nodup HGroup.name subs hu.inv.2.1 hs
      simp only [HGroup.subs]
      rw [this, Option.bind_some]
      exact h1
theorem visitsL_at (path : List Bytes) (gs : List HGroup) (hu : ∀ g ∈ gs, Uniq g) (p : List Bytes) (v : HVar)
    (h : Visit.var p v ∈ visitsL path gs) : ∃ s ∈ gs, s.Has v := by
  match gs with
  | [] => simp [visitsL] at h
  | g :: gs =>
    rw [visitsL, List.mem_append] at h
    rcases h with h | h
    · exact ⟨g, by simp, visits_at _ g (hu g (by simp)) p v h⟩
    · obtain ⟨s, hs, h⟩ := visitsL_at path gs (fun g hg => hu g (by simp [hg])) p v h
      exact ⟨s, by simp [hs], h⟩
end

theorem HasDim.along {v : HVar} {d : Bytes} {n : Nat} (h : HasDim v d n) (hv : VarAny v.dims.length v.val) :
    v.Along d n := by
  obtain ⟨i, h1, rfl⟩ := h
  obtain ⟨h2, h3⟩ := varAny_dims hv
  refine ⟨i, h1, ?_⟩
  have hi : i < v.dims.length := by
    by_cases h : i < v.dims.length
    · exact h
    · rw [List.getElem?_eq_none (by omega)] at h1
      cases h1
  rw [HVar.extents]
  rw [← h2, getDimsLimited_take] at h3 ⊢
  rw [List.length_take] at h3
  rw [List.getElem?_take_of_lt hi, List.getElem?_eq_getElem (by omega)]
  rfl

variable {s : Src} {env : Env} {root root' : HGroup} {ds : List (Bytes × Nat)} {o : Obj}

/-- Dimensions are the objects of dimension scales. -/
theorem isDim_var {path : List Bytes} {g g' : HGroup} (ha : GroupAs root path g g') (hal : GroupAllowed g)
    {w : HVar} (hw : w ∈ g'.info.vars) {heap : HeapFn} {file : Bytes} {k : Obj} (hk : VarAt heap file env k w) :
    isDim k = w.isScale := by
  have hcls := classify_class hk.obj.attrs
  rcases ha.back w hw with ⟨v, hv, hs⟩ | ⟨i, d, sz, rfl, -⟩
  · have hva := (hal.inv.2.1 v hv).attrs
    rcases hs with ⟨rfl, hsc, -⟩ | ⟨i, -, -, rfl, hc⟩
    · rw [hsc, isDim]
      have : (classify k.info.attrs).hasClass = false := by
        rw [← Bool.not_eq_true, hcls.1]
        exact reserved_fullAttrs hva kClass (by decide) (by decide)
      simp [this]
    · have h1 : (classify k.info.attrs).hasClass = true := by
        rw [hcls.1]
        simp [fullAttrs, promoted, scaleAttrs]
      have h2 : (classify k.info.attrs).hasName = true := by
        rw [classify_name hk.obj.attrs v.name (promoted_attr_name i v hva) (promoted_has_name i v)]
        have : dimMarker.isPrefixOf v.name = false := by
          rw [← Bool.not_eq_true, List.isPrefixOf_iff_prefix]
          exact hc.name
        rw [this]
        rfl
      simp [isDim, hk.obj.grp, h1, h2, promoted]
  · have := synthetic_class i d sz hk.obj.attrs
    simp only [ObjKind.isScale, Bool.and_eq_true, Bool.not_eq_true'] at this
    simp [isDim, hk.obj.grp, this, synthetic]

theorem all2_filter {α β : Type} {R : α → β → Prop} {p : α → Bool} {q : β → Bool} {f : α → Bytes} {g : β → Bytes}
    {xs : List α} {ys : List β} (h : All2 R xs ys) (hpq : ∀ x, ∀ y ∈ ys, R x y → p x = q y ∧ f x = g y) :
    (xs.filter p).map f = (ys.filter q).map g := by
  induction ys generalizing xs with
  | nil =>
    cases xs with
    | nil => rfl
    | cons x xs => exact absurd h.1 (by simp)
  | cons y ys ih =>
    cases xs with
    | nil => exact absurd h.1 (by simp)
    | cons x xs =>
      obtain ⟨h1, h2⟩ := h.of_cons
      obtain ⟨e1, e2⟩ := hpq x y (by simp) h1
      have := ih h2 (fun x z hz => hpq x z (by simp [hz]))
      rw [List.filter_cons, List.filter_cons, e1]
      split
      · rw [List.map_cons, List.map_cons, e2, this]
      · exact this

/-- The dimensions of a group of the file are its dimension scales. -/
theorem listDimensions_ok {path : List Bytes} {g g' : HGroup} {G : Group}
    (hg : GroupObj (heapLookup s.file) s.file env g' G.obj) (ha : GroupAs root path g g') (hal : GroupAllowed g) :
    G.listDimensions = (g'.info.vars.filter (·.isScale)).map (·.name) := by
  obtain ⟨vs, ss, hm⟩ := hg.members
  have hss : ss.filter isDim = [] := by
    rw [List.filter_eq_nil_iff]
    intro k hk
    obtain ⟨t, ht, -, hgo⟩ := hm.subs.left hk
    obtain ⟨_, _, hmx⟩ := hgo.members
    simp [isDim, hmx.info.grp]
  rw [Group.listDimensions, hm.kids, List.filter_append, hss, List.append_nil]
  exact all2_filter hm.vars (fun k w hw hk => ⟨isDim_var ha hal hw hk, hk.obj.name⟩)

theorem WCtx.hasOK (c : WCtx s env root root' ds o) {v : HVar} (h : root.Has v) : VarAny v.dims.length v.val := by
  obtain ⟨p, g, h1, h2⟩ := h
  exact ((c.allowed.group.at h1).inv.2.1 v h2).val

theorem WCtx.hasDim (c : WCtx s env root root' ds o) (d : Bytes) :
    d ∈ dimsOf root ↔ ∃ v, root.Has v ∧ d ∈ v.dims := by
  constructor
  · intro h
    obtain ⟨p, v, h1, h2⟩ := (mem_dimsOf [] root d).1 h
    exact ⟨v, visits_at [] root c.uniq p v h1, h2⟩
  · rintro ⟨v, ⟨p, g, h1, h2⟩, h3⟩
    exact c.varDims h1 h2 d h3

/-- The dimension scales of the root group. -/
theorem WCtx.scale (c : WCtx s env root root' ds o) {w : HVar} (hw : w ∈ root'.info.vars) (hsc : w.isScale = true) :
    ∃ (k : Nat) (d : Bytes) (n : Nat), ds[k]? = some (d, n) ∧ ScaleFor root.info.vars (0 + k) d n w := by
  rcases (c.madeOK.vars.mem w).1 hw with ⟨h1, -⟩ | h
  · rw [c.noScale.inv.1 w h1] at hsc
    cases hsc
  · exact h

theorem WCtx.dimReads (c : WCtx s env root root' ds o) : DimReads root (rootGroup o) := by
  have hal := c.allowed.group
  have hlist : (rootGroup o).listDimensions = ((sortG root').info.vars.filter (·.isScale)).map (·.name) :=
    listDimensions_ok (s := s) (env := env) (G := rootGroup o) c.written.obj c.rootAs hal
  obtain ⟨vs, ss, hm⟩ := c.written.obj.members
  have hmem : ∀ d, d ∈ (rootGroup o).listDimensions ↔ d ∈ ds.map (·.1) := by
    intro d
    rw [hlist]
    simp only [List.mem_map, List.mem_filter, mem_sortG_vars]
    constructor
    · rintro ⟨w, ⟨hw, hsc⟩, rfl⟩
      obtain ⟨k, d, n, hk, hs⟩ := c.scale hw hsc
      exact ⟨_, List.mem_of_getElem? hk, hs.name.symm⟩
    · rintro ⟨x, hx, rfl⟩
      obtain ⟨k, hk⟩ := List.mem_iff_getElem?.1 hx
      by_cases hv : ∃ v ∈ root.info.vars, v.name = x.1
      · obtain ⟨v, hv, he⟩ := hv
        exact ⟨promoted (0 + k) v, ⟨(c.madeOK.vars.mem _).2 (.inr ⟨k, x.1, x.2, hk, .inl ⟨v, hv, he, rfl⟩⟩), rfl⟩, he⟩
      · exact ⟨synthetic (0 + k) x.1 x.2, ⟨(c.madeOK.vars.mem _).2 (.inr ⟨k, x.1, x.2, hk,
          .inr ⟨fun v hvm e => hv ⟨v, hvm, e⟩, rfl⟩⟩), rfl⟩, rfl⟩
  have hget : ∀ d, (rootGroup o).obj.kids.find? (fun k => isDim k && k.info.name == d) = none ∨
      ∃ k w, (rootGroup o).obj.kids.find? (fun k => isDim k && k.info.name == d) = some k ∧ w ∈ root'.info.vars ∧
        w.isScale = true ∧ w.name = d ∧ VarAt (heapLookup s.file) s.file env k w := by
    intro d
    cases hf : (rootGroup o).obj.kids.find? (fun k => isDim k && k.info.name == d) with
    | none => exact .inl rfl
    | some k =>
      have hk := List.mem_of_find?_eq_some hf
      have hp := List.find?_some hf
      simp only [Bool.and_eq_true, beq_iff_eq] at hp
      have hk' : k ∈ vs ++ ss := by rw [← hm.kids]; exact hk
      rcases List.mem_append.1 hk' with hk | hk
      · obtain ⟨w, hw, hva⟩ := hm.vars.left hk
        refine .inr ⟨k, w, rfl, (mem_sortG_vars _ _).1 hw, ?_, ?_, hva⟩
        · rw [← isDim_var c.rootAs hal hw hva]
          exact hp.1
        · rw [← hva.obj.name]
          exact hp.2
      · obtain ⟨t, ht, -, hgo⟩ := hm.subs.left hk
        obtain ⟨_, _, hmx⟩ := hgo.members
        exact absurd hp.1 (by simp [isDim, hmx.info.grp])
  refine ⟨?_, ?_, ?_, ?_⟩
  · rw [hlist]
    have h1 : ((sortG root').info.vars.map (·.name)).Nodup := (List.nodup_append.1 c.tidy.inv.1).1
    exact (List.filter_sublist.map _).nodup h1
  · intro d
    rw [hmem, c.madeOK.dimName, c.hasDim]
    exact And.comm
  · intro d n hd hag
    have hfound : (rootGroup o).obj.kids.find? (fun k => isDim k && k.info.name == d) ≠ none := by
      intro hn
      rw [Group.listDimensions] at hd
      obtain ⟨k, hk, rfl⟩ := List.mem_map.1 hd
      rw [List.mem_filter] at hk
      have := List.find?_eq_none.1 hn k hk.1
      simp [hk.2] at this
    rcases hget d with h | ⟨k, w, h1, hw, hsc, hwn, hva⟩
    · exact absurd h hfound
    · obtain ⟨j, d', m, hj, hs⟩ := c.scale hw hsc
      have hdd : d' = d := by rw [← hs.name, hwn]
      subst hdd
      rw [Group.getDimension, h1]
      simp only [hva.obj.dims]
      rcases hs with ⟨v, hv, hvn, rfl⟩ | ⟨-, rfl⟩
      · have hhas : root.Has v := ⟨[], root, rfl, hv⟩
        obtain ⟨e1, e2⟩ := varAny_dims (c.hasOK hhas)
        have hhead := hag.coord v hv hvn
        simp only [promoted]
        rw [e1]
        cases hvd : v.dims with
        | nil => rw [hvd] at hhead; cases hhead
        | cons x xs =>
          rw [hvd] at hhead e2
          simp only [List.head?_cons, Option.some.injEq] at hhead
          cases hex : extents (x :: xs).length v.val with
          | nil => rw [hex] at e2; simp at e2
          | cons y ys =>
            have := hag.all v y hhas ⟨0, by rw [hvd]; simp [hhead], by rw [HVar.extents, hvd, hex]; rfl⟩
            rw [this]
      · rcases c.madeOK.dims.new (d', m) (List.mem_of_getElem? hj) with h | ⟨-, v, ⟨p, hp⟩, hdim⟩
        · cases h
        · have hhas := visits_at [] root c.uniq p v hp
          have := hag.all v m hhas (hdim.along (c.hasOK hhas))
          subst this
          simp [synthetic, getDimsLimited, getDimsLimitedHead_take]
  · intro d hd
    rcases hget d with h | ⟨k, w, h1, hw, hsc, hwn, hva⟩
    · rw [Group.getDimension, h]
    · exfalso
      apply hd
      rw [hlist]
      exact List.mem_map.2 ⟨w, List.mem_filter.2 ⟨(mem_sortG_vars _ _).2 hw, hsc⟩, hwn⟩

/-- Subgroups have no dimensions. -/
theorem WCtx.noDims (c : WCtx s env root root' ds o) {names : List Bytes} (hne : names ≠ []) {g g' : HGroup} {G : Group}
    (hat : root.at? names = some g)
    (hg : GroupObj (heapLookup s.file) s.file env g' G.obj) (ha : GroupAs root names g g') :
    G.listDimensions = [] := by
  rw [listDimensions_ok hg ha (c.allowed.group.at hat), List.map_eq_nil_iff, List.filter_eq_nil_iff]
  intro w hw
  rcases ha.back w hw with ⟨v, hv, hs⟩ | ⟨i, d, sz, rfl, -, hp⟩
  · rcases hs with ⟨rfl, hsc, -⟩ | ⟨i, hp, -⟩
    · simp [hsc]
    · exact absurd hp hne
  · exact absurd hp hne

end Verif.H5
