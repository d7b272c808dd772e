import Verif.Lemmas.H5ApiFile
import Verif.Spec.H5Written
/-!
A written file in terms of the format.
-/
namespace Verif.H5

theorem extentT_getDimsT : ∀ (n : Nat) (v : TVal), extentT n v = ((getDimsT v)[n]?).getD 0
  | n, .enum v _ _ => by rw [extentT, getDimsT, extentT_getDimsT n v]
  | 0, .slice t xs => by simp [extentT, getDimsT]
  | n + 1, .slice t [] => by simp [extentT, getDimsT, getDimsHeadT]
  | n + 1, .slice t (x :: xs) => by simp [extentT, getDimsT, getDimsHeadT, extentT_getDimsT n x]
  | n, .num .. => by simp [extentT, getDimsT]
  | n, .str .. => by simp [extentT, getDimsT]
  | n, .opaque .. => by simp [extentT, getDimsT]
  | n, .compound .. => by simp [extentT, getDimsT]
  | n, .field .. => by simp [extentT, getDimsT]
  | n, .nil => by simp [extentT, getDimsT]

theorem extent_getDims : ∀ (n : Nat) (v : GoVal), extent n v = ((getDims v)[n]?).getD 0
  | n, .num k b => by simp [extent, getDims]
  | n, .str s => by simp [extent, getDims]
  | 0, .slice t xs => by simp [extent, getDims]
  | n + 1, .slice t [] => by simp [extent, getDims, getDimsHead]
  | n + 1, .slice t (x :: xs) => by simp [extent, getDims, getDimsHead, extent_getDims n x]
  | n, .other t => by simp [extent, getDims]
  | n, .user v => by rw [extent, getDims, extentT_getDimsT]

mutual
theorem within_visits : ∀ (path p : List Bytes) (g : HGroup) (v : HVar), Visit.var p v ∈ visits path g → VarWithin v g
  | path, p, .mk i subs, v, h => by
    simp only [visits, List.mem_append, List.mem_map, List.mem_singleton] at h
    rcases h with (⟨w, hw, he⟩ | he) | h
    · cases he
      exact .here _ hw
    · cases he
    · obtain ⟨s, hs, hv⟩ := within_visitsL path p subs v h
      exact .deeper _ s hs hv
theorem within_visitsL : ∀ (path p : List Bytes) (gs : List HGroup) (v : HVar), Visit.var p v ∈ visitsL path gs →
    ∃ s ∈ gs, VarWithin v s
  | path, p, [], v, h => by simp [visitsL] at h
  | path, p, g :: gs, v, h => by
    simp only [visitsL, List.mem_append] at h
    rcases h with h | h
    · exact ⟨g, by simp, within_visits _ p g v h⟩
    · obtain ⟨s, hs, hv⟩ := within_visitsL path p gs v h
      exact ⟨s, by simp [hs], hv⟩
end

/-! ### Attributes -/

theorem attrIn {heap : HeapFn} {i : Info} {full : List (Bytes × GoVal)} (h : All2 (AttrHolds heap) i.attrs full)
    {p : Bytes × GoVal} (hp : p ∈ full) : AttrIn heap i p.1 (GoVal.lift p.2) := by
  obtain ⟨a, ha, hh⟩ := h.right hp
  exact ⟨a, ha, hh.name, hh.shown⟩

theorem attrsIn {heap : HeapFn} {i : Info} {full : List (Bytes × GoVal)} (h : All2 (AttrHolds heap) i.attrs full)
    (hn : (full.map (·.1)).Nodup) (as : HAttrs) (more : List Bytes) (h1 : ∀ p ∈ as.getD [], p ∈ full)
    (h2 : ∀ p ∈ full, p ∈ as.getD [] ∨ p.1 ∈ more) : AttrsIn heap i as more where
  each := fun p hp => attrIn h (h1 p hp)
  only := fun a ha => by
    obtain ⟨p, hp, hh⟩ := h.left ha
    rw [hh.name]
    rcases h2 p hp with h | h
    · exact .inl (List.mem_map_of_mem h)
    · exact .inr h
  once := by
    rw [h.map_eq (g := (·.1)) (fun _ _ h => h.name)]
    exact hn

theorem scaleIn {heap : HeapFn} {i : Info} {full : List (Bytes × GoVal)} (h : All2 (AttrHolds heap) i.attrs full)
    {id : Nat} {name : Bytes} (hid : id < 2 ^ 32) (hs : ∀ p ∈ scaleAttrs id name, p ∈ full) :
    ScaleIn heap i name id where
  isScale := by
    have := attrIn h (hs (kClass, .str (ascii "DIMENSION_SCALE")) (by simp [scaleAttrs]))
    rwa [lift_str] at this
  name := by
    have := attrIn h (hs (kName, .str name) (by simp [scaleAttrs]))
    rwa [lift_str] at this
  number := by
    have := attrIn h (hs (kDimid, dimid id) (by simp [scaleAttrs]))
    rwa [dimid, lift_num, Nat.mod_eq_of_lt hid] at this

theorem dimListPair_nodup (env : Env) (v : HVar) : ((dimListPair env v).map (·.1)).Nodup := by
  unfold dimListPair
  split
  · simp
  · split <;> simp

/-! ### Dimensions -/

/-- The number of a dimension. -/
def idOf (ds : List (Bytes × Nat)) (d : Bytes) : Nat := (ds.map (·.1)).idxOf d

theorem idOf_get {ds : List (Bytes × Nat)} (hn : (ds.map (·.1)).Nodup) {k : Nat} {d : Bytes} {n : Nat}
    (h : ds[k]? = some (d, n)) : idOf ds d = k := by
  have hk : k < (ds.map (·.1)).length := by
    by_cases hk : k < ds.length
    · simpa using hk
    · rw [List.getElem?_eq_none (by omega)] at h
      cases h
  have he : (ds.map (·.1))[k] = d := by
    have : (ds.map (·.1))[k]? = some d := by simp [h]
    rw [List.getElem?_eq_getElem hk] at this
    exact Option.some.inj this
  rw [idOf, ← he]
  exact hn.idxOf_getElem k hk

theorem idOf_inj {ds : List (Bytes × Nat)} {d d' : Bytes} (h : d ∈ ds.map (·.1)) (h' : d' ∈ ds.map (·.1))
    (e : idOf ds d = idOf ds d') : d = d' := by
  have h1 := List.getElem_idxOf (List.idxOf_lt_length_iff.2 h)
  have h2 := List.getElem_idxOf (List.idxOf_lt_length_iff.2 h')
  rw [← h1, ← h2]
  congr 1

variable {s : Src} {env : Env} {root root' : HGroup} {ds : List (Bytes × Nat)} {o : Obj}

theorem WCtx.few (c : WCtx s env root root' ds o) : ds.length ≤ 50000 := by
  have h1 := c.allowed.few
  have h2 := c.madeOK.nodup.length_le_of_subset (l₂ := dimsOf root) (fun d hd => ((c.madeOK.dimName d).1 hd).1)
  rw [List.length_map] at h2
  omega

/-- Numbers of dimensions are different. -/
theorem WCtx.ids (c : WCtx s env root root' ds o) : ∀ d ∈ dimsOf root, ∀ d' ∈ dimsOf root, d ≠ [] → d' ≠ [] →
    idOf ds d = idOf ds d' → d = d' :=
  fun d hd d' hd' h h' e => idOf_inj ((c.madeOK.dimName d).2 ⟨hd, h⟩) ((c.madeOK.dimName d').2 ⟨hd', h'⟩) e

/-- What a scale of the file is. -/
theorem WCtx.scaleVar (c : WCtx s env root root' ds o) {w : HVar} (hw : w ∈ root'.info.vars) (hd : w.name ∈ ds.map (·.1)) :
    w.isScale = true ∧ idOf ds w.name < 2 ^ 32 ∧ ((∃ v ∈ root.info.vars, w = promoted (idOf ds w.name) v) ∨
      ∃ len, LenOf root w.name len ∧ w = synthetic (idOf ds w.name) w.name len) := by
  have hfew := c.few
  rcases (c.madeOK.vars.mem w).1 hw with ⟨-, h⟩ | ⟨k, d, len, hk, h⟩
  · exact absurd hd h
  · have hn := h.name
    have hid := idOf_get c.madeOK.nodup hk
    rw [← hn] at hid
    have hkl : k < ds.length := by
      by_cases hk' : k < ds.length
      · exact hk'
      · rw [List.getElem?_eq_none (by omega)] at hk
        cases hk
    refine ⟨h.scale, by omega, ?_⟩
    rw [hid]
    rcases h with ⟨v, hv, -, he⟩ | ⟨-, he⟩
    · exact .inl ⟨v, hv, by rw [he, Nat.zero_add]⟩
    · refine .inr ⟨len, ?_, by rw [hn, he, Nat.zero_add]⟩
      rcases c.madeOK.dims.new _ (List.mem_of_getElem? hk) with hm | ⟨-, v, ⟨p, hv⟩, i, h1, h2⟩
      · cases hm
      · rw [hn]
        exact ⟨v, within_visits _ _ _ _ hv, i, h1, by rw [extent_getDims]; exact h2.symm⟩

theorem WCtx.scaleOf (c : WCtx s env root root' ds o) {heap : HeapFn} {w : HVar} (hw : w ∈ root'.info.vars)
    (hd : w.name ∈ ds.map (·.1)) {k : Obj} (hk : VarAt heap s.file env k w) :
    ∃ n, ScaleIn heap k.info n (idOf ds w.name) := by
  obtain ⟨hs, hid, h⟩ := c.scaleVar hw hd
  have ha := hk.obj.attrs
  rw [fullAttrs, dimListPair_scale hs, List.append_nil] at ha
  rcases h with ⟨v, hv, he⟩ | ⟨len, -, he⟩
  · refine ⟨v.name, scaleIn ha hid ?_⟩
    intro p hp
    rw [he]
    simp only [promoted, Option.getD_some, List.mem_append]
    exact .inl hp
  · refine ⟨notAVariable len, scaleIn ha hid ?_⟩
    intro p hp
    rw [he]
    exact hp

/-- The scale of a dimension in the file. -/
theorem WCtx.scaleKid (c : WCtx s env root root' ds o) {heap : HeapFn} (hh : HeapFinds s.file heap) {d : Bytes}
    (hd : d ∈ dimsOf root) (hne : d ≠ []) :
    ∃ k ∈ o.kids, k.info.name = d ∧ (env.dimAddrs.get d).getD 0 % 2 ^ 64 = k.info.addr ∧
      ∃ n, ScaleIn heap k.info n (idOf ds d) := by
  have hm := (c.madeOK.dimName d).2 ⟨hd, hne⟩
  obtain ⟨x, hx, he⟩ := List.mem_map.1 hm
  obtain ⟨n, hn⟩ := List.mem_iff_getElem?.1 hx
  obtain ⟨w, hw, hwn⟩ : ∃ w ∈ root'.info.vars, w.name = d := by
    by_cases hv : ∃ v ∈ root.info.vars, v.name = d
    · obtain ⟨v, hv, rfl⟩ := hv
      exact ⟨promoted (0 + n) v, (c.madeOK.vars.mem _).2 (.inr ⟨n, x.1, x.2, hn, .inl ⟨v, hv, he.symm, rfl⟩⟩), rfl⟩
    · exact ⟨synthetic (0 + n) x.1 x.2, (c.madeOK.vars.mem _).2 (.inr ⟨n, x.1, x.2, hn,
        .inr ⟨fun v hvm e => hv ⟨v, hvm, e.trans he⟩, rfl⟩⟩), he⟩
  subst hwn
  obtain ⟨hws, -, -⟩ := c.scaleVar hw hm
  obtain ⟨vs, ss, hmem⟩ := (c.written.every heap hh).members
  obtain ⟨c1, -, -⟩ := hmem.child c.tidy
  obtain ⟨k, hk, hva, -⟩ := c1 w ((mem_sortG_vars _ _).2 hw)
  refine ⟨k, by rw [hmem.kids]; simp [hk], hva.obj.name, ?_, c.scaleOf hw hm hva⟩
  rw [hva.addr hws]
  obtain ⟨k', -, -, hget⟩ := c.written.scale w hw hws
  have := c.written.scales _ _ hget
  rw [hget, Option.getD_some, Nat.mod_eq_of_lt (by omega)]

theorem scale_list {da : GoMap Nat} {P : Obj → Prop} : ∀ ds : List Bytes,
    (∀ d ∈ ds, ∃ k, P k ∧ k.info.name = d ∧ (da.get d).getD 0 % 2 ^ 64 = k.info.addr) →
    ∃ ks : List Obj, ks.map (fun k => k.info.name) = ds ∧ (∀ k ∈ ks, P k) ∧
      GoVal.lift (dimRefs da ds) =
        .slice (.slice (.num .u64)) (ks.map fun k => .slice (.num .u64) [.num .u64 k.info.addr])
  | [], _ => ⟨[], rfl, by simp, by simp [dimRefs, lift_slice, GoTy.lift]⟩
  | d :: ds, h => by
    obtain ⟨k, h1, h2, h3⟩ := h d (by simp)
    obtain ⟨ks, g1, g2, g3⟩ := scale_list ds fun x hx => h x (by simp [hx])
    refine ⟨k :: ks, by simp [h2, g1], ?_, ?_⟩
    · intro x hx
      rcases List.mem_cons.1 hx with rfl | hx
      · exact h1
      · exact g2 x hx
    · simp only [dimRefs, lift_slice, GoTy.lift, List.map_cons, List.map_nil, lift_num, h3, List.map_map,
        TVal.slice.injEq, true_and, List.cons.injEq] at g3 ⊢
      exact g3

/-! ### Variables and groups -/

theorem WCtx.varIn (c : WCtx s env root root' ds o) {heap : HeapFn} (hh : HeapFinds s.file heap) {path : List Bytes}
    {v w : HVar} (hs : Stands root path v w) (hr : path = [] → w ∈ root'.info.vars) (hv : VarAllowed v)
    (hd : ∀ d ∈ v.dims, d ∈ dimsOf root) {k : Obj} (hk : VarAt heap s.file env k w) :
    VarHeld s.file heap (idOf ds) root o path v k := by
  have hval := hk.obj.value
  have ha := hk.obj.attrs
  have hres : ∀ p ∈ v.attrs.getD [], p.1 ∉ reservedKeys := fun p hp => (hv.attrs.each p hp).key
  rcases hs with ⟨rfl, hsc, hp⟩ | ⟨i, hp, hdim, rfl, hc⟩
  · refine ⟨hk.obj.name, hk.obj.kids, hval, ?_, ?_⟩
    · refine attrsIn ha ?_ _ _ (fun p hp => by simp [fullAttrs, hp]) ?_
      · rw [fullAttrs, List.map_append, List.nodup_append]
        refine ⟨hv.attrs.keys, dimListPair_nodup _ _, ?_⟩
        intro a h1 b h2 e
        obtain ⟨p, hp, rfl⟩ := List.mem_map.1 h1
        obtain ⟨q, hq, rfl⟩ := List.mem_map.1 h2
        apply hres p hp
        rw [e, dimListPair_keys env w q hq]
        decide
      · intro p hp
        rw [fullAttrs, List.mem_append] at hp
        rcases hp with hp | hp
        · exact .inl hp
        · right
          rw [dimListPair_keys env w p hp]
          decide
    · have hno : ¬ (path = [] ∧ w.name ∈ dimsOf root) := fun e => hp e.1 e.2
      rw [DimsIn, if_neg hno]
      intro hne hem
      obtain ⟨ks, g1, g2, g3⟩ := scale_list (da := env.dimAddrs)
        (P := fun k => k ∈ o.kids ∧ ∃ n, ScaleIn heap k.info n (idOf ds k.info.name)) w.dims (by
          intro d hdm
          obtain ⟨k, h1, h2, h3, h4⟩ := c.scaleKid hh (hd d hdm) (fun e => hem (e ▸ hdm))
          exact ⟨k, ⟨h1, by rw [h2]; exact h4⟩, h2, h3⟩)
      refine ⟨ks, g1, g2, ?_⟩
      rw [← g3]
      have hpair : dimListPair env w = [(kDimList, dimRefs env.dimAddrs w.dims)] := by
        unfold dimListPair
        cases hh : env.heap with
        | none => exact absurd hh c.written.heap
        | some H =>
          simp only
          rw [if_pos]
          refine ⟨hsc, hne, ?_⟩
          rw [List.all_eq_true]
          intro d hdm
          have hne : d ≠ [] := fun e => hem (e ▸ hdm)
          obtain ⟨k, _, _, hget, _⟩ := c.scaleAt (hd d hdm) hne
          simp [hne, hget]
      exact attrIn ha (p := (kDimList, dimRefs env.dimAddrs w.dims)) (by simp [fullAttrs, hpair])
  · have hw := hr hp
    have hdn : v.name ∈ ds.map (·.1) := by
      have hm := (c.madeOK.vars.mem (promoted i v)).1 hw
      rcases hm with ⟨hm, -⟩ | ⟨k, d, len, hk, h⟩
      · exact absurd (c.noScale.inv.1 _ hm) (by simp [promoted])
      · have : v.name = d := h.name
        rw [this]
        exact List.mem_map.2 ⟨_, List.mem_of_getElem? hk, rfl⟩
    obtain ⟨-, hid, h⟩ := c.scaleVar hw hdn
    have hattr : (promoted i v).attrs.getD [] = scaleAttrs (idOf ds v.name) v.name ++ v.attrs.getD [] := by
      rcases h with ⟨u, hu, he⟩ | ⟨len, -, he⟩
      · have h1 : (promoted i v).name = (promoted (idOf ds (promoted i v).name) u).name := congrArg HVar.name he
        have h1 : v.name = u.name := h1
        have h2 := congrArg HVar.attrs he
        simp only [promoted, Option.some.injEq] at h2 ⊢
        have h3 := List.append_inj h2 rfl
        rw [Option.getD_some, h2, h3.2, h1]
      · exfalso
        have h2 := congrArg HVar.attrs he
        simp only [promoted, synthetic, Option.some.injEq, scaleAttrs, List.cons_append, List.nil_append,
          List.cons.injEq, Prod.mk.injEq, GoVal.str.injEq, true_and] at h2
        exact hc.name (h2.1 ▸ marker_notAVariable len)
    have hfull : fullAttrs env (promoted i v) = scaleAttrs (idOf ds v.name) v.name ++ v.attrs.getD [] := by
      rw [fullAttrs, dimListPair_scale rfl, List.append_nil, hattr]
    rw [hfull] at ha
    refine ⟨hk.obj.name, hk.obj.kids, hval, ?_, ?_⟩
    · refine attrsIn ha ?_ _ _ (fun p hp => by simp [hp]) ?_
      · rw [List.map_append, List.nodup_append]
        refine ⟨(by decide : [kClass, kName, kDimid].Nodup), hv.attrs.keys, ?_⟩
        intro a h1 b h2 e
        obtain ⟨q, hq, rfl⟩ := List.mem_map.1 h2
        apply hres q hq
        rw [← e]
        have : a ∈ [kClass, kName, kDimid] := h1
        revert this
        generalize a = x
        intro hx
        simp only [List.mem_cons, List.not_mem_nil, or_false] at hx
        rcases hx with rfl | rfl | rfl <;> decide
      · intro p hp
        rw [List.mem_append] at hp
        rcases hp with hp | hp
        · right
          simp only [scaleAttrs, List.mem_cons, List.not_mem_nil, or_false] at hp
          rcases hp with rfl | rfl | rfl
          · exact (by decide : kClass ∈ ["CLASS", "NAME", "_Netcdf4Dimid", "DIMENSION_LIST"].map ascii)
          · exact (by decide : kName ∈ ["CLASS", "NAME", "_Netcdf4Dimid", "DIMENSION_LIST"].map ascii)
          · exact (by decide : kDimid ∈ ["CLASS", "NAME", "_Netcdf4Dimid", "DIMENSION_LIST"].map ascii)
        · exact .inl hp
    · rw [DimsIn, if_pos ⟨hp, hdim⟩]
      exact scaleIn ha hid (fun p hp => by simp [hp])

/-- Every group of the file holds what it has to hold. -/
theorem WCtx.groupIn (c : WCtx s env root root' ds o) {heap : HeapFn} (hh : HeapFinds s.file heap) (names : List Bytes) :
    match root.at? names with
    | none => follow o names = none
    | some g => ∃ o', follow o names = some o' ∧ GroupHeld s.file heap (idOf ds) root o names g o' := by
  have hobj := c.written.every heap hh
  have main : ∀ g g' o', root.at? names = some g → GroupObj heap s.file env g' o' → Tidy g' → GroupAs root names g g' →
      (names = [] → g' = sortG root') → GroupHeld s.file heap (idOf ds) root o names g o' := by
    intro g g' o' hat hgo ht has hroot
    obtain ⟨vs, ss, hm⟩ := hgo.members
    obtain ⟨c1, c2, c3⟩ := hm.child ht
    obtain ⟨g1, g2, g3, g4, g5, g6⟩ := (c.allowed.group.at hat).inv
    obtain ⟨post, hpost, hncp⟩ := has.attrs
    have hpl : post.length ≤ 1 := by
      obtain ⟨post', h1, h2⟩ := has.few
      have := List.append_cancel_left (hpost.symm.trans h1)
      rw [this]
      exact h2
    have hmem : ∀ w ∈ g'.info.vars, names = [] → w ∈ root'.info.vars := by
      intro w hw he
      rw [hroot he, mem_sortG_vars] at hw
      exact hw
    refine ⟨hm.info.grp, ?_, ?_, ?_, ?_, ?_⟩
    · have ha := hm.info.attrs
      refine attrsIn ha ?_ _ _ (fun p hp => by rw [hpost]; simp [hp]) ?_
      · rw [hpost, List.map_append, List.nodup_append]
        refine ⟨g1.keys, ?_, ?_⟩
        · match post, hpl with
          | [], _ => simp
          | [x], _ => simp
        · intro a h1 b h2 e
          obtain ⟨p, hp, rfl⟩ := List.mem_map.1 h1
          obtain ⟨q, hq, rfl⟩ := List.mem_map.1 h2
          apply (g1.each p hp).key
          rw [e, hncp q hq]
          decide
      · intro p hp
        rw [hpost, List.mem_append] at hp
        rcases hp with hp | hp
        · exact .inl hp
        · right
          rw [hncp p hp]
          exact List.mem_singleton.2 rfl
    · intro v hv
      obtain ⟨w, hw, hs⟩ := has.vars v hv
      obtain ⟨k, hk, hva, -⟩ := c1 w hw
      refine ⟨k, by rw [hm.kids]; simp [hk], c.varIn hh hs (fun e => hmem w hw e) (g2 v hv) ?_ hva⟩
      intro d hd
      apply dimsOf_at names hat
      cases g
      rw [dimsOf, List.mem_append, List.mem_flatMap]
      exact .inl ⟨v, hv, hd⟩
    · intro x hx
      have : x.name ∈ g'.subs.map (·.name) := has.subs.mem_iff.2 (List.mem_map_of_mem hx)
      obtain ⟨t, ht', hn⟩ := List.mem_map.1 this
      obtain ⟨k, hk, hgk, hkn, -⟩ := c2 t ht'
      obtain ⟨_, _, hmk⟩ := hgk.members
      exact ⟨k, by rw [hm.kids]; simp [hk], by rw [hkn, hn], hmk.info.grp⟩
    · intro k hk
      rw [hm.kids, List.mem_append] at hk
      rcases hk with hk | hk
      · obtain ⟨w, hw, hva⟩ := hm.vars.left hk
        rcases has.back w hw with ⟨v, hv, hs⟩ | ⟨i, d, sz, he, hno, hp⟩
        · left
          rw [hva.obj.name, hs.name]
          exact List.mem_map_of_mem hv
        · right
          right
          refine ⟨hp, ?_⟩
          have hw' := hmem w hw hp
          have hdn : w.name ∈ ds.map (·.1) := by
            rcases (c.madeOK.vars.mem w).1 hw' with ⟨hm, -⟩ | ⟨j, d', len, hj, h⟩
            · exact absurd (c.noScale.inv.1 _ hm) (by simp [he, synthetic])
            · rw [h.name]
              exact List.mem_map.2 ⟨_, List.mem_of_getElem? hj, rfl⟩
          obtain ⟨hsc, hid, h⟩ := c.scaleVar hw' hdn
          have hat' : root = g := by
            subst hp
            simpa [HGroup.at?] using hat
          rcases h with ⟨v, hv, he'⟩ | ⟨len, hlen, he'⟩
          · exfalso
            refine hno v (hat' ▸ hv) ?_
            have h1 : w.name = v.name := by rw [he']; rfl
            have h2 : w.name = d := by rw [he]; rfl
            rw [← h1, h2]
          · have ha := hva.obj.attrs
            rw [fullAttrs, dimListPair_scale hsc, List.append_nil] at ha
            have hn := hva.obj.name
            refine ⟨len, notAVariable len, by rw [hn]; exact hlen, ?_, ?_, ?_⟩
            · rw [hva.obj.dims, he']
              cases len <;> simp [synthetic, getDimsLimited, getDimsLimitedHead, List.replicate_succ]
            · refine List.IsPrefix.trans ?_ (List.prefix_append _ _)
              rw [← List.isPrefixOf_iff_prefix]
              decide
            · rw [hn]
              refine scaleIn ha hid ?_
              intro p hp
              rw [he']
              exact hp
      · obtain ⟨t, ht', hn, -⟩ := hm.subs.left hk
        right
        left
        rw [hn]
        exact has.subs.mem_iff.1 (List.mem_map_of_mem ht')
    · rw [hm.names]
      exact ht.inv.1
  have h := follow_at names hobj c.tidy
  cases names with
  | nil =>
    simp only [HGroup.at?] at h ⊢
    obtain ⟨o', h1, h2, h3⟩ := h
    exact ⟨o', h1, main _ _ _ rfl h2 h3 c.rootAs (fun _ => rfl)⟩
  | cons n p =>
    have he : root'.at? (n :: p) = root.at? (n :: p) := by
      rw [at_cons, at_cons, c.madeOK.subs]
    rw [at_sortG _ c.uniq', he] at h
    cases hg : root.at? (n :: p) with
    | none =>
      rw [hg] at h
      exact h
    | some g =>
      rw [hg] at h
      obtain ⟨o', h1, h2, h3⟩ := h
      exact ⟨o', h1, main _ _ _ hg h2 h3 (groupAs_sub (by simp) (c.noScale.at hg)) (fun e => by cases e)⟩

end Verif.H5
