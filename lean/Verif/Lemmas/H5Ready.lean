import Verif.Lemmas.H5Meta
import Verif.Lemmas.CdfCalls
/-!
Every allowed file can be written.
-/
namespace Verif.H5
open Cdf

/-! ### Variables that users add are no dimension scales -/

/-- No variable is a dimension scale yet. -/
inductive NoScale : HGroup → Prop
  | mk (i : GInfo) (subs : List HGroup) : (∀ v ∈ i.vars, v.isScale = false) →
      (∀ s ∈ subs, NoScale s) → NoScale (.mk i subs)

theorem NoScale.modify {f : HGroup → HGroup} (hu : ∀ g, NoScale g → NoScale (f g)) (p : List Bytes)
    {g : HGroup} (h : NoScale g) : NoScale (g.modify f p) := by
  induction p generalizing g with
  | nil => exact hu g h
  | cons n p ih =>
    cases h with
    | mk i subs h1 h3 =>
      refine .mk _ _ h1 ?_
      intro s hs
      simp only [List.mem_map] at hs
      obtain ⟨t, ht, rfl⟩ := hs
      split
      · exact ih (h3 t ht)
      · exact h3 t ht

theorem NoScale.inv {g : HGroup} (h : NoScale g) : (∀ v ∈ g.info.vars, v.isScale = false) ∧
    ∀ s ∈ g.subs, NoScale s := by
  cases h with
  | mk i subs h1 h2 => exact ⟨h1, h2⟩

theorem NoScale.run {u : UniTables} {root : HGroup} (h : NoScale root) (c : HCall) :
    NoScale (c.run u root) := by
  cases c with
  | createGroup p n =>
    simp only [HCall.run]
    split
    · rename_i r hr
      unfold createGroupH at hr
      split at hr
      · cases hr
      · cases hr
        refine h.modify ?_ p
        intro g hg
        split
        · exact hg
        · refine .mk _ _ hg.inv.1 ?_
          intro s hs
          simp only [List.mem_append, List.mem_singleton] at hs
          rcases hs with hs | rfl
          · exact hg.inv.2 s hs
          · exact .mk _ _ (by simp) (by simp)
    · exact h
  | addVar p n v d a =>
    simp only [HCall.run]
    split
    · rename_i r hr
      unfold addVarH at hr
      repeat' split at hr
      all_goals cases hr
      refine h.modify ?_ p
      intro g hg
      refine .mk _ _ ?_ hg.inv.2
      intro w hw
      simp only [mem_setVar] at hw
      rcases hw with rfl | hw
      · rfl
      · exact hg.inv.1 w hw.1
    · exact h
  | addAttributes p a =>
    simp only [HCall.run]
    split
    · rename_i r hr
      unfold addAttributesH at hr
      repeat' split at hr
      all_goals cases hr
      refine h.modify ?_ p
      intro g hg
      exact .mk _ _ hg.inv.1 hg.inv.2
    · exact h

theorem noScale_runCalls (u : UniTables) (cs : List HCall) : NoScale (runCalls u cs) := by
  unfold runCalls
  have h0 : NoScale newRoot := .mk _ _ (by simp) (by simp)
  revert h0
  generalize newRoot = r
  induction cs generalizing r with
  | nil => exact id
  | cons c cs ih => exact fun h => ih _ (h.run c)

theorem NoScale.visits {g : HGroup} (h : NoScale g) : ∀ (path p : List Bytes) (v : HVar),
    Visit.var p v ∈ visits path g → v.isScale = false := by
  induction h with
  | mk i subs h1 h2 ih =>
    intro path p v hm
    simp only [H5.visits, List.mem_append, List.mem_map, List.mem_singleton] at hm
    rcases hm with (⟨w, hw, he⟩ | he) | hm
    · cases he
      exact h1 v hw
    · cases he
    · obtain ⟨s, hs, hm⟩ := (mem_visitsL _ _ _).1 hm
      exact ih s hs _ p v hm

/-! ### What is visited is allowed -/

/-- A variable or a group with allowed contents. -/
def VisitAllowed : Visit → Prop
  | .var _ v => VarAllowed v
  | .grp _ as => AttrsAllowed as

theorem GroupAllowed.visits {g : HGroup} (h : GroupAllowed g) : ∀ (path : List Bytes) (x : Visit),
    x ∈ visits path g → VisitAllowed x := by
  induction h with
  | mk i subs h1 h2 h3 h4 h5 h6 ih =>
    intro path x hm
    simp only [H5.visits, List.mem_append, List.mem_map, List.mem_singleton] at hm
    rcases hm with (⟨w, hw, rfl⟩ | rfl) | hm
    · exact h2 w hw
    · exact h1
    · obtain ⟨s, hs, hm⟩ := (mem_visitsL _ _ _).1 hm
      exact ih s hs _ x hm

theorem GroupAllowed.inv {g : HGroup} (h : GroupAllowed g) : AttrsAllowed g.info.attrs ∧
    (∀ v ∈ g.info.vars, VarAllowed v) ∧
    (∀ n ∈ g.info.vars.map (·.name) ++ g.subs.map (·.name), NameOK n) ∧
    (∀ v ∈ g.info.vars, v.name ∉ g.subs.map (·.name)) ∧
    (g.info.attrs.getD []).length + (g.info.vars.length + g.subs.length) ≤ 50000 ∧
    (∀ s ∈ g.subs, GroupAllowed s) := by
  cases h with
  | mk i subs h1 h2 h3 h4 h5 h6 => exact ⟨h1, h2, h3, h4, h5, h6⟩

theorem Uniq.inv {g : HGroup} (h : Uniq g) : (g.info.vars.map (·.name)).Nodup ∧
    (g.subs.map (·.name)).Nodup ∧ ∀ s ∈ g.subs, Uniq s := by
  cases h with
  | mk i subs h1 h2 h3 => exact ⟨h1, h2, h3⟩

/-- The messages of the attributes are small enough. -/
def VisitFit : Visit → Prop
  | .var _ v => (∀ p ∈ v.attrs.getD [], (0 : UInt8) ∉ p.1 ∧ p.1.length + valueRoom p.2 ≤ 65000 ∧
        p.1 ≠ kDimList) ∧
      (v.attrs.getD []).length < 59000
  | .grp _ as => ∀ p ∈ as.getD [], (0 : UInt8) ∉ p.1 ∧ p.1.length + valueRoom p.2 ≤ 65000 ∧ p.1 ≠ kDimList

theorem AttrAllowed.notList {p : Bytes × GoVal} (h : AttrAllowed p) : p.1 ≠ kDimList :=
  fun e => h.key (by rw [e]; decide)

theorem VisitAllowed.ok {x : Visit} (h : VisitAllowed x) : VisitOK x ∧ VisitFit x ∧ x.attrKeys.Nodup := by
  cases x with
  | var p v =>
    exact ⟨⟨h.val, h.refs, fun q hq => ⟨(h.attrs.each q hq).val, (h.attrs.each q hq).refs⟩⟩,
      ⟨fun q hq => ⟨(h.attrs.each q hq).noNul, (h.attrs.each q hq).room, (h.attrs.each q hq).notList⟩,
        by have := h.attrs.few; omega⟩, h.attrs.keys⟩
  | grp p as =>
    exact ⟨fun q hq => ⟨(h.each q hq).val, (h.each q hq).refs⟩,
      fun q hq => ⟨(h.each q hq).noNul, (h.each q hq).room, (h.each q hq).notList⟩, h.keys⟩

/-! ### What was collected is enough to write the contents -/

/-- This can be written. -/
def VisitReady (heap : HeapFn) (env : Env) : Visit → Prop
  | .var p v => v.isScale = false → VarReady heap env p v
  | .grp p as => ∀ q ∈ as.getD [],
      AttrReady heap env.heap ((env.attrVlens.lookup (p, none, q.1)).getD []) q

theorem Collected.ready {da : GoMap Nat} {vs : List Visit} {h : Heap} {t1 : VarTable} {t2 : AttrTable}
    (hc : Collected da vs h t1 t2) (a : Nat) (heap : HeapFn) (hh : HeapHas heap { h with addr := a })
    {x : Visit} (hx : x ∈ vs) (hf : VisitFit x) :
    VisitReady heap ⟨false, some { h with addr := a }, da, t1, t2⟩ x := by
  have hle : h.Le { h with addr := a } := Heap.Le.refl h
  cases x with
  | var p v =>
    intro hs
    refine ⟨hc.vars p v hx _ heap hle hh, ?_, hf.2, ?_⟩
    · intro q hq
      refine ⟨(hf.1 q hq).1, (hf.1 q hq).2.1, (hf.1 q hq).2.2, ?_⟩
      exact hc.attrs ((p, some v.name, q.1), q.2)
        (List.mem_flatMap.2 ⟨_, hx, by
          simp only [Visit.items, List.mem_map]
          exact ⟨q, hq, rfl⟩⟩) _ heap hle hh
    · intro H hH
      cases hH
      refine ⟨hh, fun _ d hd hne hsome => ?_⟩
      exact (hc.refs p v hx hs d hd hne hsome).le hle
  | grp p as =>
    intro q hq
    refine ⟨(hf q hq).1, (hf q hq).2.1, (hf q hq).2.2, ?_⟩
    exact hc.attrs ((p, none, q.1), q.2)
      (List.mem_flatMap.2 ⟨_, hx, by
        simp only [Visit.items, List.mem_map]
        exact ⟨q, hq, rfl⟩⟩) _ heap hle hh

theorem sortGs_eq (gs : List HGroup) : sortGs gs = gs.map sortG := by
  induction gs with
  | nil => rfl
  | cons g gs ih => rw [sortGs, ih, List.map_cons]

theorem sortG_subs (g : HGroup) : (sortG g).subs = sortBy HGroup.name (g.subs.map sortG) := by
  cases g
  simp only [sortG, HGroup.subs, sortGs_eq]

theorem sortG_name (g : HGroup) : (sortG g).name = g.name := by
  simp [HGroup.name, sortG_info]

theorem sortG_subs_names (g : HGroup) : ((sortG g).subs.map (·.name)).Perm (g.subs.map (·.name)) := by
  rw [sortG_subs]
  refine ((sortBy_perm _ _).map _).trans ?_
  rw [List.map_map]
  have : (HGroup.name ∘ sortG) = HGroup.name := funext sortG_name
  rw [this]

theorem sortG_vars_names (g : HGroup) :
    ((sortG g).info.vars.map (·.name)).Perm (g.info.vars.map (·.name)) := by
  rw [sortG_info]
  exact (sortBy_perm _ _).map _

theorem sortG_names (g : HGroup) :
    ((sortG g).info.vars.map (·.name) ++ (sortG g).subs.map (·.name)).Perm
      (g.info.vars.map (·.name) ++ g.subs.map (·.name)) :=
  (sortG_vars_names g).append (sortG_subs_names g)

/-- What is needed of a subgroup besides its members. -/
def SubCond (heap : HeapFn) (env : Env) (path : List Bytes) (g : HGroup) : Prop :=
  (∀ p ∈ g.info.attrs.getD [],
      AttrReady heap env.heap ((env.attrVlens.lookup (path, none, p.1)).getD []) p) ∧
    (∀ v ∈ g.info.vars, v.isScale = false) ∧
    (g.info.attrs.getD []).length + (g.info.vars.length + g.subs.length) < 59000 ∧
    (g.info.vars.map (·.name) ++ g.subs.map (·.name)).Nodup ∧
    (∀ n ∈ g.info.vars.map (·.name) ++ g.subs.map (·.name), n.length ≤ 255)

theorem subsReady_of (heap : HeapFn) (env : Env) (path : List Bytes) (gs : List HGroup)
    (h : ∀ g ∈ gs, SubCond heap env (path ++ [g.name]) g ∧ ContentsReady heap env (path ++ [g.name]) g) :
    SubsReady heap env path gs := by
  induction gs with
  | nil => exact trivial
  | cons g gs ih =>
    obtain ⟨h1, h2⟩ := h g (by simp)
    exact ⟨h1, h2, ih (fun x hx => h x (by simp [hx]))⟩

theorem names_nodup {g : HGroup} (hu : Uniq g) (hd : ∀ v ∈ g.info.vars, v.name ∉ g.subs.map (·.name)) :
    (g.info.vars.map (·.name) ++ g.subs.map (·.name)).Nodup := by
  rw [List.nodup_append]
  refine ⟨hu.inv.1, hu.inv.2.1, ?_⟩
  intro a ha b hb e
  obtain ⟨v, hv, rfl⟩ := List.mem_map.1 ha
  exact hd v hv (e ▸ hb)

theorem group_ready (heap : HeapFn) (env : Env) {g : HGroup} (h : GroupAllowed g) :
    ∀ path, Uniq g → NoScale g → (∀ x ∈ visits path g, VisitReady heap env x) →
      SubCond heap env path (sortG g) ∧ ContentsReady heap env path (sortG g) := by
  induction h with
  | mk i subs h1 h2 h3 h4 h5 h6 ih =>
    intro path hu hn hv
    have hmem : ∀ v, v ∈ sortBy HVar.name i.vars ↔ v ∈ i.vars := fun v => (sortBy_perm _ _).mem_iff
    have hlen1 := (sortG_vars_names (.mk i subs)).length_eq
    have hlen2 := (sortG_subs_names (.mk i subs)).length_eq
    have hperm := sortG_names (.mk i subs)
    simp only [List.length_map] at hlen1 hlen2
    refine ⟨⟨?_, ?_, ?_, ?_, ?_⟩, ?_⟩
    · rw [sortG_info]
      exact hv (.grp path i.attrs) (by simp [visits])
    · rw [sortG_info]
      intro v hv
      exact hn.inv.1 v ((hmem v).1 hv)
    · rw [hlen1, hlen2, sortG_info]
      simp only [HGroup.info, HGroup.subs]
      omega
    · exact hperm.nodup_iff.2 (names_nodup hu h4)
    · intro n hm
      exact (h3 n (hperm.mem_iff.1 hm)).short
    · simp only [sortG, ContentsReady]
      refine ⟨?_, subsReady_of _ _ _ _ ?_⟩
      · intro v hm hs
        exact hv (.var path v) (by simp [visits, (hmem v).1 hm]) hs
      · intro g hg
        rw [(sortBy_perm _ _).mem_iff, sortGs_eq, List.mem_map] at hg
        obtain ⟨s, hs, rfl⟩ := hg
        rw [sortG_name]
        refine ih s hs _ (hu.inv.2.2 s hs) (hn.inv.2 s hs) ?_
        intro x hx
        refine hv x ?_
        simp only [visits, List.mem_append]
        exact .inr ((mem_visitsL _ _ _).2 ⟨s, hs, hx⟩)

/-! ### The root group with its metadata -/

theorem decDigits_len : ∀ (b : Nat) (n : Nat), n < 10 ^ b → 0 < b → (decDigits n).length ≤ b := by
  intro b
  induction b with
  | zero => intro n _ h; omega
  | succ b ih =>
    intro n hn _
    rw [decDigits]
    split
    · simp
    · rename_i hlt
      have hb : 0 < b := by
        rcases Nat.eq_zero_or_pos b with rfl | h
        · simp at hn; omega
        · exact h
      have := ih (n / 10) (by rw [Nat.div_lt_iff_lt_mul (by omega)]; rw [Nat.pow_succ] at hn; exact hn) hb
      simp
      omega

theorem notAVariable_ok (s : Nat) (hs : s < 2 ^ 63) :
    (0 : UInt8) ∉ notAVariable s ∧ (notAVariable s).length ≤ 100 := by
  constructor
  · unfold notAVariable
    rw [List.mem_append, List.mem_append, not_or, not_or]
    refine ⟨by decide, ?_, ?_⟩
    · rw [List.mem_replicate]
      rintro ⟨_, h⟩
      exact absurd h (by decide)
    · intro h
      exact decDigits_nulFree s 0 h rfl
  · have h1 := decDigits_len 19 s (by omega) (by omega)
    have h2 : (ascii "This is a netCDF dimension but not a netCDF variable.").length = 53 := by decide
    unfold notAVariable
    rw [List.length_append, List.length_append, List.length_replicate, h2]
    omega

theorem dimid_plain (i : Nat) : AttrPlain (dimid i) := by
  refine .num .i32 [] _ ⟨_, rfl, ?_⟩ ⟨by simp, by simp⟩ (by simp) (by simp [Kind.isFloat]) (by decide)
  exact Nat.mod_lt _ (by decide)

/-- An attribute that a dimension scale may have. -/
def ScaleAttr (p : Bytes × GoVal) : Prop :=
  (0 : UInt8) ∉ p.1 ∧ p.1.length + valueRoom p.2 ≤ 65000 ∧ AttrPlain p.2 ∧ heapStrs p.2 = [] ∧ p.1 ≠ kDimList

theorem kKeys_ok : ((0 : UInt8) ∉ kClass ∧ kClass.length ≤ 50 ∧ kClass ≠ kDimList) ∧
    ((0 : UInt8) ∉ kName ∧ kName.length ≤ 50 ∧ kName ≠ kDimList) ∧
    ((0 : UInt8) ∉ kDimid ∧ kDimid.length ≤ 50 ∧ kDimid ≠ kDimList) ∧
    ((0 : UInt8) ∉ ncpKey ∧ ncpKey.length ≤ 50 ∧ ncpKey ≠ kDimList) := by decide

theorem scaleAttr_str (k s : Bytes) (hk : (0 : UInt8) ∉ k ∧ k.length ≤ 50 ∧ k ≠ kDimList) (h0 : (0 : UInt8) ∉ s)
    (hs : s.length ≤ 300) : ScaleAttr (k, .str s) :=
  ⟨hk.1, by simp only [valueRoom]; omega, .str s h0 (by omega), rfl, hk.2.2⟩

theorem scaleAttr_dimid (i : Nat) : ScaleAttr (kDimid, dimid i) :=
  ⟨kKeys_ok.2.2.1.1, by have := kKeys_ok.2.2.1.2.1; simp only [valueRoom, dimid, Kind.size]; omega,
    dimid_plain i, rfl, kKeys_ok.2.2.1.2.2⟩

theorem classStr_ok : (0 : UInt8) ∉ ascii "DIMENSION_SCALE" ∧ (ascii "DIMENSION_SCALE").length ≤ 300 := by
  decide

theorem ncpValue_ok : (0 : UInt8) ∉ (ascii "version=2,github.com/batchatco/go-native-netcdf=1.0") ∧
    (ascii "version=2,github.com/batchatco/go-native-netcdf=1.0").length ≤ 300 := by
  decide

theorem AttrPlain.ok {v : GoVal} (h : AttrPlain v) : AttrOK v := by
  cases h with
  | num k dims _ h1 h2 h3 h4 h5 => exact .num k dims _ h1 h2 h3 h4 h5
  | str s h1 h2 => exact .str s h1 h2

theorem ScaleAttr.allowed {p : Bytes × GoVal} (h : ScaleAttr p) : AttrAny p.2 ∧ NoRefStrs p.2 :=
  ⟨.common _ h.2.2.1.ok, by intro s hs; rw [h.2.2.2.1] at hs; simp at hs⟩

/-- What is known of a dimension scale. -/
structure ScaleOK (w : HVar) : Prop where
  ready : ScaleReady w
  visit : ∀ p, VisitOK (.var p w)
  keys : ((w.attrs.getD []).map (·.1)).Nodup

theorem ScaleOK.fit {w : HVar} (h : ScaleOK w) (p : List Bytes) : VisitFit (.var p w) :=
  ⟨fun q hq => ⟨(h.ready.attrs q hq).1, (h.ready.attrs q hq).2.1, h.ready.keys q hq⟩, h.ready.few⟩

theorem synthetic_ok (i : Nat) (d : Bytes) (s : Nat) (hs : s < 2 ^ 63) : ScaleOK (synthetic i d s) := by
  have hval : VarPlain 1 (synthetic i d s).val := by
    refine .num .i8 [s] _ ?_ ⟨by simp, by simpa using hs, by simp, by simpa [prod, Kind.size] using hs⟩
    refine ⟨_, rfl, by simp, ?_⟩
    intro x hx
    rw [(List.mem_replicate.1 hx).2]
    exact ⟨0, rfl, by decide⟩
  obtain ⟨n1, n2⟩ := notAVariable_ok s hs
  have hat : ∀ p ∈ (synthetic i d s).attrs.getD [], ScaleAttr p := by
    intro p hp
    simp only [synthetic, Option.getD_some, List.mem_cons, List.not_mem_nil, or_false] at hp
    rcases hp with rfl | rfl | rfl
    · exact scaleAttr_str _ _ kKeys_ok.1 classStr_ok.1 classStr_ok.2
    · exact scaleAttr_str _ _ kKeys_ok.2.1 n1 (by omega)
    · exact scaleAttr_dimid i
  refine ⟨⟨hval, fun p hp => ⟨(hat p hp).1, (hat p hp).2.1, (hat p hp).2.2.1⟩, by simp [synthetic],
    fun p hp => (hat p hp).2.2.2.2⟩, ?_, ?_⟩
  · intro _
    refine ⟨.common _ _ (.plain _ _ hval), ?_, fun p hp => (hat p hp).allowed⟩
    intro s hs
    simp only [synthetic, heapStrs, strsInL_replicate] at hs
    simp at hs
  · exact (by decide : [kClass, kName, kDimid].Nodup)

theorem promoted_ok (i : Nat) (v : HVar) (hv : VarAllowed v) (hc : CoordAllowed v)
    (hn : v.name.length ≤ 255) : ScaleOK (promoted i v) := by
  have hat : ∀ p ∈ scaleAttrs i v.name, ScaleAttr p := by
    intro p hp
    simp only [scaleAttrs, List.mem_cons, List.not_mem_nil, or_false] at hp
    rcases hp with rfl | rfl | rfl
    · exact scaleAttr_str _ _ kKeys_ok.1 classStr_ok.1 classStr_ok.2
    · exact scaleAttr_str _ _ kKeys_ok.2.1 hc.nul (by omega)
    · exact scaleAttr_dimid i
  have hmem : ∀ p, p ∈ (promoted i v).attrs.getD [] ↔ p ∈ scaleAttrs i v.name ∨ p ∈ v.attrs.getD [] := by
    intro p
    simp [promoted]
  refine ⟨⟨hc.val, ?_, ?_, ?_⟩, ?_, ?_⟩
  · intro p hp
    rcases (hmem p).1 hp with hp | hp
    · exact ⟨(hat p hp).1, (hat p hp).2.1, (hat p hp).2.2.1⟩
    · exact ⟨(hv.attrs.each p hp).noNul, (hv.attrs.each p hp).room, hc.attrs p hp⟩
  · have := hv.attrs.few
    simp only [promoted, Option.getD_some, List.length_append, scaleAttrs, List.length_cons, List.length_nil]
    omega
  · intro p hp
    rcases (hmem p).1 hp with hp | hp
    · exact (hat p hp).2.2.2.2
    · exact (hv.attrs.each p hp).notList
  · intro _
    refine ⟨hv.val, hv.refs, ?_⟩
    intro p hp
    rcases (hmem p).1 hp with hp | hp
    · exact (hat p hp).allowed
    · exact ⟨(hv.attrs.each p hp).val, (hv.attrs.each p hp).refs⟩
  · simp only [promoted, Option.getD_some]
    rw [List.map_append, List.nodup_append]
    refine ⟨(by decide : [kClass, kName, kDimid].Nodup), hv.attrs.keys, ?_⟩
    intro a ha b hb e
    obtain ⟨p, hp, rfl⟩ := List.mem_map.1 hb
    apply (hv.attrs.each p hp).key
    rw [← e]
    simp only [scaleAttrs, List.map_cons, List.map_nil, List.mem_cons, List.not_mem_nil, or_false] at ha
    rcases ha with rfl | rfl | rfl <;> decide

/-- The root group with its metadata. -/
structure MetaOK (root root' : HGroup) (ds : List (Bytes × Nat)) : Prop where
  attrs : root'.info.attrs = some (root.info.attrs.getD [] ++ [(ncpKey, ncpValue)])
  subs : root'.subs = root.subs
  vars : ScalesMade root.info.vars 0 ds root'.info.vars
  dims : DimStep [] ds (fun v => ∃ p, Visit.var p v ∈ visits [] root)
  nodup : (ds.map (·.1)).Nodup

theorem addMetadata_ok (root : HGroup) (ha : FileStored root) (hu : Uniq root) (hn : NoScale root) :
    ∃ root' ds, addMetadata root = .ok root' ∧ MetaOK root root' ds := by
  obtain ⟨i, subs⟩ := root
  have hds := collectDims_step [] (sortG (.mk i subs)) [] (fun p v hm =>
    hn.visits [] p v ((mem_visits_sortG _ _ _).1 hm))
  have hds' : DimStep [] (collectDims (sortG (.mk i subs)) [])
      (fun v => ∃ p, Visit.var p v ∈ visits [] (.mk i subs)) :=
    hds.congr (fun v => by simp only [mem_visits_sortG])
  have hnd := hds'.nodup (by simp)
  obtain ⟨g1, g2, g3, g4, g5, g6⟩ := ha.group.inv
  obtain ⟨vars', h1, h2⟩ := makeScales_ok (collectDims (sortG (.mk i subs)) []) 0 i.vars hnd hu.inv.1
    (fun v hv _ => ⟨hn.inv.1 v hv, (g2 v hv).attrs.keys, fun p hp => ((g2 v hv).attrs.each p hp).key⟩)
  have hat := ha.attrs
  simp only [HGroup.info] at hat g1 g2
  cases hps : i.attrs with
  | none => exact absurd hps hat
  | some ps =>
    rw [hps] at g1
    have h3 := addNCProperties_ok ps g1.keys (fun p hp => (g1.each p hp).key)
    refine ⟨.mk { i with attrs := some (ps ++ [(ncpKey, ncpValue)]), vars := vars' } subs, _, ?_,
      ?_, rfl, h2, hds', hnd⟩
    · simp only [addMetadata, hps, h3, h1]
    · simp only [HGroup.info, hps, Option.getD_some]

/-- What is known of the variables of the root group. -/
theorem MetaOK.var {root root' : HGroup} {ds : List (Bytes × Nat)} (h : MetaOK root root' ds)
    (ha : FileStored root) {w : HVar} (hw : w ∈ root'.info.vars) :
    (w ∈ root.info.vars ∧ w.name ∉ ds.map (·.1)) ∨
      (w.isScale = true ∧ ScaleOK w ∧ w.name ∈ ds.map (·.1)) := by
  obtain ⟨g1, g2, g3, g4, g5, g6⟩ := ha.group.inv
  rcases (h.vars.mem w).1 hw with hw | ⟨k, d, s, hk, hs⟩
  · exact .inl hw
  · refine .inr ⟨hs.scale, ?_, ?_⟩
    · have hmem : (d, s) ∈ ds := List.mem_of_getElem? hk
      rcases h.dims.new _ hmem with hm | ⟨hne, v, ⟨p, hv⟩, hd⟩
      · cases hm
      · rcases hs with ⟨u, hu, hn, rfl⟩ | ⟨_, rfl⟩
        · have hdim : u.name ∈ dimsOf root := by
            rw [hn, mem_dimsOf []]
            obtain ⟨j, hj, _⟩ := hd
            exact ⟨p, v, hv, List.mem_of_getElem? hj⟩
          exact promoted_ok _ u (g2 u hu) (ha.coord u hu hdim)
            (g3 u.name (by simp only [List.mem_append, List.mem_map]; exact .inl ⟨u, hu, rfl⟩)).short
        · exact synthetic_ok _ d s (hd.lt (ha.group.visits [] _ hv).val)
    · rw [hs.name]
      exact List.mem_map.2 ⟨_, List.mem_of_getElem? hk, rfl⟩

theorem MetaOK.dimName {root root' : HGroup} {ds : List (Bytes × Nat)} (h : MetaOK root root' ds)
    (d : Bytes) : d ∈ ds.map (·.1) ↔ d ∈ dimsOf root ∧ d ≠ [] := by
  rw [mem_dimsOf []]
  constructor
  · intro hd
    obtain ⟨x, hx, rfl⟩ := List.mem_map.1 hd
    rcases h.dims.new _ hx with hm | ⟨hne, v, ⟨p, hv⟩, j, hj, _⟩
    · cases hm
    · exact ⟨⟨p, v, hv, List.mem_of_getElem? hj⟩, hne⟩
  · rintro ⟨⟨p, v, hv, hd⟩, hne⟩
    exact h.dims.all v ⟨p, hv⟩ d hd hne

theorem MetaOK.closeReady {root root' : HGroup} {ds : List (Bytes × Nat)} (h : MetaOK root root' ds)
    (ha : FileStored root) (hu : Uniq root) (hn : NoScale root) (ord : Order) (hord : OrderOK ord) :
    CloseReady ord root' := by
  obtain ⟨g1, g2, g3, g4, g5, g6⟩ := ha.group.inv
  have hname : ∀ w ∈ root'.info.vars, w.name.length ≤ 255 ∧ w.name ∉ root.subs.map (·.name) := by
    intro w hw
    rcases h.var ha hw with ⟨hw, _⟩ | ⟨_, _, hd⟩
    · exact ⟨(g3 w.name (by simp only [List.mem_append, List.mem_map]; exact .inl ⟨w, hw, rfl⟩)).short, g4 w hw⟩
    · exact ha.dims w.name ((h.dimName _).1 hd).1
  have hu' : Uniq root' := by
    have h1 := h.vars.nodup
    have h2 := h.subs
    cases root' with
    | mk i' subs' =>
      simp only [HGroup.subs] at h2
      subst h2
      exact .mk _ _ h1 hu.inv.2.1 hu.inv.2.2
  have hperm := sortG_names root'
  have hvisit : ∀ x ∈ visits [] root', VisitOK x ∧ VisitFit x ∧ x.attrKeys.Nodup := by
    intro x hx
    have h1 := h.attrs
    have h2 := h.subs
    have h3 : ∀ w ∈ root'.info.vars, _ := fun w hw => h.var ha hw
    cases root' with
    | mk i' subs' =>
    simp only [HGroup.subs, HGroup.info] at h1 h2 h3
    simp only [visits, List.mem_append, List.mem_map, List.mem_singleton] at hx
    rcases hx with (⟨w, hw, rfl⟩ | rfl) | hx
    · rcases h3 w hw with ⟨hw, _⟩ | ⟨_, hok, _⟩
      · exact VisitAllowed.ok (x := .var [] w) (g2 w hw)
      · exact ⟨hok.visit [], hok.fit [], hok.keys⟩
    · obtain ⟨o1, o2, o3⟩ := VisitAllowed.ok (x := .grp [] root.info.attrs) g1
      have hncp := scaleAttr_str ncpKey _ kKeys_ok.2.2.2 ncpValue_ok.1 ncpValue_ok.2
      rw [h1]
      refine ⟨?_, ?_, ?_⟩
      · intro p hp
        simp only [Option.getD_some, List.mem_append, List.mem_singleton] at hp
        rcases hp with hp | rfl
        · exact o1 p hp
        · exact hncp.allowed
      · intro p hp
        simp only [Option.getD_some, List.mem_append, List.mem_singleton] at hp
        rcases hp with hp | rfl
        · exact o2 p hp
        · exact ⟨hncp.1, hncp.2.1, hncp.2.2.2.2⟩
      · simp only [Visit.attrKeys, Option.getD_some, List.map_append, List.map_cons, List.map_nil]
        rw [List.nodup_append]
        refine ⟨o3, by simp, ?_⟩
        intro a hm b hb e
        simp only [List.mem_singleton] at hb
        subst hb
        subst e
        obtain ⟨p, hp, he⟩ := List.mem_map.1 hm
        exact (g1.each p hp).key (by rw [he]; decide)
    · obtain ⟨s, hs, hm⟩ := (mem_visitsL _ _ _).1 hx
      rw [h2] at hs
      exact ((g6 s hs).visits _ x hm).ok
  refine ⟨?_, ?_, ?_, ?_, ?_⟩
  · intro v hv hs
    rcases h.var ha hv with ⟨hv, _⟩ | ⟨_, hok, _⟩
    · rw [hn.inv.1 v hv] at hs
      cases hs
    · exact hok.ready
  · refine hperm.nodup_iff.2 (names_nodup hu' ?_)
    intro v hv
    rw [h.subs]
    exact (hname v hv).2
  · intro n hm
    have := hperm.mem_iff.1 hm
    rw [List.mem_append, h.subs] at this
    rcases this with hm | hm
    · obtain ⟨v, hv, rfl⟩ := List.mem_map.1 hm
      exact (hname v hv).1
    · exact (g3 n (by rw [List.mem_append]; exact .inr hm)).short
  · have hlen1 := (sortG_vars_names root').length_eq
    have hlen2 := (sortG_subs_names root').length_eq
    simp only [List.length_map] at hlen1 hlen2
    have h1 := h.vars.len
    have h2 : ds.length ≤ (dimsOf root).length := by
      have := h.nodup.length_le_of_subset (l₂ := dimsOf root) (fun d hd => ((h.dimName d).1 hd).1)
      simpa using this
    have := ha.few
    rw [hlen1, hlen2, h.attrs, h.subs]
    simp only [Option.getD_some, List.length_append, List.length_cons, List.length_nil]
    omega
  · intro buf da _
    obtain ⟨hp, t1, t2, hcol, hc⟩ := collect_ok ord hord da root' (fun x hx => (hvisit x hx).1)
      (varKey_nodup _ (visits_nodup [] root' hu'))
      (items_nodup _ (visits_nodup [] root' hu') (fun x hx => (hvisit x hx).2.2))
    refine ⟨hp, t1, t2, hcol, ?_, ?_⟩
    · have := hc.few
      rw [visits_need] at this
      have h1 : root'.need ≤ root.need := by
        have h1 := h.vars.need
        have h2 := h.subs
        have h3 := h.attrs
        cases root with
        | mk i subs =>
        cases root' with
        | mk i' subs' =>
        simp only [HGroup.subs, HGroup.info] at h1 h2 h3
        subst h2
        simp only [HGroup.need, h3, attrsNeed, Option.getD_some, List.map_append, List.sum_append_nat,
          List.map_cons, List.map_nil, List.sum_cons, List.sum_nil, attrNeed, ncpValue, heapStrs, slicesIn,
          List.length_nil]
        omega
      have := ha.need
      omega
    · intro a heap hh
      have hr : ∀ x ∈ visits [] root', VisitReady heap ⟨false, some { hp with addr := a }, da, t1, t2⟩ x :=
        fun x hx => hc.ready a heap hh hx (hvisit x hx).2.1
      cases hroot : root' with
      | mk i' subs' =>
      rw [hroot] at hr
      refine ⟨?_, hr (.grp [] i'.attrs) (by simp [visits])⟩
      simp only [sortG, ContentsReady]
      refine ⟨?_, subsReady_of _ _ _ _ ?_⟩
      · intro v hm hs
        exact hr (.var [] v) (by simp [visits, (sortBy_perm _ _).mem_iff.1 hm]) hs
      · intro g hg
        rw [(sortBy_perm _ _).mem_iff, sortGs_eq, List.mem_map] at hg
        obtain ⟨s, hs, rfl⟩ := hg
        have hsub := h.subs
        rw [hroot] at hsub
        simp only [HGroup.subs] at hsub
        have hs' : s ∈ root.subs := by
          rw [← show subs' = root.subs from hsub]; exact hs
        rw [sortG_name]
        refine group_ready _ _ (g6 s hs') _ (hu.inv.2.2 s hs') (hn.inv.2 s hs') ?_
        intro x hx
        refine hr x ?_
        simp only [visits, List.mem_append]
        exact .inr ((mem_visitsL _ _ _).2 ⟨s, hs, hx⟩)

end Verif.H5
