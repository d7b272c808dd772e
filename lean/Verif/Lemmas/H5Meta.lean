import Verif.Lemmas.H5Passes
import Verif.Lemmas.H5Session
import Verif.Lemmas.OrderedMap
/-!
Dimension scales and the other metadata that `Close` adds.
-/
namespace Verif.H5

/-! ### Attributes -/

theorem foldl_set {α : Type} (ps : List (Bytes × α)) (m : GoMap α)
    (h : (m.map (·.1) ++ ps.map (·.1)).Nodup) :
    ps.foldl (fun m p => GoMap.set m p.1 p.2) m = m ++ ps := by
  induction ps generalizing m with
  | nil => simp
  | cons p ps ih =>
    obtain ⟨k, v⟩ := p
    have hk : k ∉ GoMap.keys m := by
      intro hk
      rw [List.nodup_append] at h
      exact h.2.2 k hk k (by simp) rfl
    rw [List.foldl_cons, GoMap.set_of_not_mem m k v hk, ih, List.append_assoc, List.singleton_append]
    simpa using h

theorem lookup_pairs {α : Type} (qs : List (Bytes × α)) (h : (qs.map (·.1)).Nodup) {q : Bytes × α}
    (hq : q ∈ qs) : GoMap.get qs q.1 = some q.2 := by
  induction qs with
  | nil => simp at hq
  | cons p qs ih =>
    obtain ⟨k, v⟩ := p
    rw [List.map_cons, List.nodup_cons] at h
    rw [List.mem_cons] at hq
    rw [GoMap.get_cons]
    rcases hq with rfl | hq
    · rw [if_pos rfl]
    · rw [if_neg, ih h.2 hq]
      intro e
      exact h.1 (e ▸ List.mem_map_of_mem (f := (·.1)) hq)

theorem filterMap_pairs {α : Type} (qs rs : List (Bytes × α)) (h : (qs.map (·.1)).Nodup)
    (hr : ∀ r ∈ rs, r ∈ qs) :
    (rs.map (·.1)).filterMap (fun k => (GoMap.get qs k).map (k, ·)) = rs := by
  induction rs with
  | nil => rfl
  | cons r rs ih =>
    rw [List.map_cons, List.filterMap_cons, lookup_pairs qs h (hr r (by simp)), Option.map_some,
      ih (fun x hx => hr x (by simp [hx]))]

theorem newAttrs_pairs (qs : List (Bytes × GoVal)) (h : (qs.map (·.1)).Nodup) :
    newAttrs (qs.map (·.1)) qs = .ok (some qs) := by
  have : OMap.new (qs.map (·.1)) qs = .ok ⟨qs.map (·.1), qs, qs.map (·.1), []⟩ := by
    simp [OMap.new, GoMap.keys]
  simp only [newAttrs, this, OMap.visibleKeys, OMap.get, filterMap_pairs qs qs h (fun _ h => h)]

/-- The value of `_NCProperties`. -/
def ncpValue : GoVal := .str (ascii "version=2,github.com/batchatco/go-native-netcdf=1.0")

theorem addNCProperties_ok (ps : List (Bytes × GoVal)) (h : (ps.map (·.1)).Nodup)
    (hn : ∀ p ∈ ps, p.1 ∉ reservedKeys) :
    addNCProperties (some ps) = .ok (some (ps ++ [(ncpKey, ncpValue)])) := by
  have hk : ncpKey ∉ ps.map (·.1) := by
    intro hm
    obtain ⟨p, hp, he⟩ := List.mem_map.1 hm
    exact hn p hp (by rw [he]; decide)
  have hnd : ((ps ++ [(ncpKey, ncpValue)]).map (·.1)).Nodup := by
    rw [List.map_append, List.nodup_append]
    refine ⟨h, by simp, ?_⟩
    intro a ha b hb e
    simp only [List.map_cons, List.map_nil, List.mem_singleton] at hb
    subst hb
    subst e
    exact hk ha
  have := newAttrs_pairs _ hnd
  rw [List.map_append] at this
  simp only [addNCProperties]
  rw [foldl_set ps [] (by simpa using h), List.nil_append, GoMap.set_of_not_mem ps _ _ hk]
  exact this

/-- What `Close` adds to a coordinate variable. -/
def scaleAttrs (i : Nat) (name : Bytes) : List (Bytes × GoVal) :=
  [(kClass, .str (ascii "DIMENSION_SCALE")), (kName, .str name), (kDimid, dimid i)]

/-- A coordinate variable with its metadata. -/
def promoted (i : Nat) (v : HVar) : HVar :=
  { v with attrs := some (scaleAttrs i v.name ++ v.attrs.getD []), isScale := true }

theorem promote_ok (i : Nat) (v : HVar) (h : ((v.attrs.getD []).map (·.1)).Nodup)
    (hn : ∀ p ∈ v.attrs.getD [], p.1 ∉ reservedKeys) : promote i v = .ok (promoted i v) := by
  have hnd : ((scaleAttrs i v.name ++ v.attrs.getD []).map (·.1)).Nodup := by
    rw [List.map_append, List.nodup_append]
    refine ⟨(by decide : [kClass, kName, kDimid].Nodup), h, ?_⟩
    intro a ha b hb e
    obtain ⟨p, hp, rfl⟩ := List.mem_map.1 hb
    apply hn p hp
    rw [← e]
    simp only [scaleAttrs, List.map_cons, List.map_nil, List.mem_cons, List.not_mem_nil, or_false] at ha
    rcases ha with rfl | rfl | rfl <;> decide
  have h1 := newAttrs_pairs _ hnd
  rw [List.map_append] at h1 hnd
  have h2 := foldl_set (v.attrs.getD []) (scaleAttrs i v.name) hnd
  unfold promote
  simp only [scaleAttrs, List.map_cons, List.map_nil] at h1 h2
  simp only [h2, h1, promoted, scaleAttrs]

/-! ### Visits -/

theorem mem_visitsL (path : List Bytes) (gs : List HGroup) (x : Visit) :
    x ∈ visitsL path gs ↔ ∃ g ∈ gs, x ∈ visits (path ++ [g.name]) g := by
  induction gs with
  | nil => simp [visitsL]
  | cons g gs ih => simp [visitsL, ih]

mutual
theorem mem_visits_sortG (path : List Bytes) (g : HGroup) (x : Visit) :
    x ∈ visits path (sortG g) ↔ x ∈ visits path g := by
  match g with
  | .mk i subs =>
    simp only [sortG, visits, List.mem_append, List.mem_map, List.mem_singleton]
    have h1 : ∀ v, v ∈ sortBy HVar.name i.vars ↔ v ∈ i.vars := fun v => (sortBy_perm _ _).mem_iff
    have h2 : x ∈ visitsL path (sortBy HGroup.name (sortGs subs)) ↔ x ∈ visitsL path subs := by
      rw [← mem_visitsL_sortGs path subs x, mem_visitsL, mem_visitsL]
      have h3 : ∀ g, g ∈ sortBy HGroup.name (sortGs subs) ↔ g ∈ sortGs subs :=
        fun g => (sortBy_perm _ _).mem_iff
      simp only [h3]
    simp only [h1, h2]
theorem mem_visitsL_sortGs (path : List Bytes) (gs : List HGroup) (x : Visit) :
    x ∈ visitsL path (sortGs gs) ↔ x ∈ visitsL path gs := by
  match gs with
  | [] => exact Iff.rfl
  | .mk i subs :: gs =>
    have hn : (sortG (.mk i subs)).name = (HGroup.mk i subs).name := by
      simp [HGroup.name, sortG_info]
    rw [sortGs, visitsL, visitsL, List.mem_append, List.mem_append, hn,
      mem_visits_sortG (path ++ [(HGroup.mk i subs).name]) (.mk i subs) x, mem_visitsL_sortGs path gs x]
end

/-- The path of a visit. -/
def Visit.path : Visit → List Bytes
  | .var p _ => p
  | .grp p _ => p

/-- What is visited. -/
def Visit.id : Visit → List Bytes × Option Bytes
  | .var p v => (p, some v.name)
  | .grp p _ => (p, none)

theorem Visit.id_path (x : Visit) : x.id.1 = x.path := by cases x <;> rfl

mutual
theorem visits_path (path : List Bytes) (g : HGroup) (x : Visit) (h : x ∈ visits path g) :
    path <+: x.path := by
  match g with
  | .mk i subs =>
    simp only [visits, List.mem_append, List.mem_map, List.mem_singleton] at h
    rcases h with (⟨v, _, rfl⟩ | rfl) | h
    · exact List.prefix_refl _
    · exact List.prefix_refl _
    · obtain ⟨g, _, hp⟩ := visitsL_path path subs x h
      exact (List.prefix_append _ _).trans hp
theorem visitsL_path (path : List Bytes) (gs : List HGroup) (x : Visit) (h : x ∈ visitsL path gs) :
    ∃ g ∈ gs, path ++ [g.name] <+: x.path := by
  match gs with
  | [] => simp [visitsL] at h
  | g :: gs =>
    rw [visitsL, List.mem_append] at h
    rcases h with h | h
    · exact ⟨g, by simp, visits_path _ g x h⟩
    · obtain ⟨g', hg', hp⟩ := visitsL_path path gs x h
      exact ⟨g', by simp [hg'], hp⟩
end

theorem prefix_inj {path : List Bytes} {a b : Bytes} {q : List Bytes} (h1 : path ++ [a] <+: q)
    (h2 : path ++ [b] <+: q) : a = b := by
  obtain ⟨t1, e1⟩ := h1
  obtain ⟨t2, e2⟩ := h2
  rw [← e1, List.append_assoc, List.append_assoc] at e2
  have := List.append_cancel_left e2
  simp at this
  exact this.1.symm

mutual
theorem visits_nodup (path : List Bytes) (g : HGroup) (hu : Uniq g) :
    ((visits path g).map Visit.id).Nodup := by
  match g, hu with
  | .mk i subs, .mk _ _ h1 h2 h3 =>
    simp only [visits, List.map_append, List.map_map, List.map_cons, List.map_nil]
    rw [List.nodup_append, List.nodup_append]
    refine ⟨⟨?_, by simp, ?_⟩, visitsL_nodup path subs h2 h3, ?_⟩
    · have : (Visit.id ∘ Visit.var path) = (fun n => (path, some n)) ∘ HVar.name := rfl
      rw [this, ← List.map_map]
      exact List.Pairwise.map _ (fun a b hab e => hab (by simpa using e)) h1
    · intro a ha b hb e
      obtain ⟨v, _, rfl⟩ := List.mem_map.1 ha
      simp only [List.mem_singleton] at hb
      subst hb
      simp [Visit.id] at e
    · intro a ha b hb e
      obtain ⟨x, hx, rfl⟩ := List.mem_map.1 hb
      obtain ⟨g, _, t, hp⟩ := visitsL_path path subs x hx
      have hap : a.1 = path := by
        rw [List.mem_append] at ha
        rcases ha with ha | ha
        · obtain ⟨v, _, rfl⟩ := List.mem_map.1 ha
          rfl
        · rw [List.mem_singleton.1 ha]
          rfl
      have := congrArg Prod.fst e
      rw [hap, Visit.id_path, ← hp] at this
      have := congrArg List.length this
      simp at this
theorem visitsL_nodup (path : List Bytes) (gs : List HGroup) (hn : (gs.map HGroup.name).Nodup)
    (hu : ∀ g ∈ gs, Uniq g) : ((visitsL path gs).map Visit.id).Nodup := by
  match gs with
  | [] => simp [visitsL]
  | g :: gs =>
    rw [List.map_cons, List.nodup_cons] at hn
    rw [visitsL, List.map_append, List.nodup_append]
    refine ⟨visits_nodup _ g (hu g (by simp)), visitsL_nodup path gs hn.2 (fun x hx => hu x (by simp [hx])), ?_⟩
    intro a ha b hb e
    obtain ⟨x, hx, rfl⟩ := List.mem_map.1 ha
    obtain ⟨y, hy, rfl⟩ := List.mem_map.1 hb
    have p1 := visits_path _ g x hx
    obtain ⟨g', hg', p2⟩ := visitsL_path path gs y hy
    have := congrArg Prod.fst e
    rw [Visit.id_path, Visit.id_path] at this
    rw [this] at p1
    have hne := prefix_inj p1 p2
    exact hn.1 (hne ▸ List.mem_map_of_mem hg')
end

theorem varKey_nodup (vs : List Visit) (h : (vs.map Visit.id).Nodup) :
    (vs.filterMap Visit.varKey).Nodup := by
  induction vs with
  | nil => simp
  | cons x vs ih =>
    rw [List.map_cons, List.nodup_cons] at h
    cases x with
    | grp p as => exact ih h.2
    | var p v =>
      have : (Visit.var p v :: vs).filterMap Visit.varKey = (p, v.name) :: vs.filterMap Visit.varKey := by
        simp [Visit.varKey]
      rw [this, List.nodup_cons]
      refine ⟨?_, ih h.2⟩
      intro hm
      obtain ⟨y, hy, he⟩ := List.mem_filterMap.1 hm
      apply h.1
      rw [List.mem_map]
      refine ⟨y, hy, ?_⟩
      cases y with
      | grp q as => cases he
      | var q w =>
        simp only [Visit.varKey, Option.some.injEq, Prod.mk.injEq] at he
        simp [Visit.id, he]

/-- The attributes of a visit have different keys. -/
def Visit.attrKeys : Visit → List Bytes
  | .var _ v => (v.attrs.getD []).map (·.1)
  | .grp _ as => (as.getD []).map (·.1)

theorem Visit.items_keys (x : Visit) :
    x.items.map (·.1) = x.attrKeys.map fun k => (x.id.1, x.id.2, k) := by
  cases x <;> simp [Visit.items, Visit.attrKeys, Visit.id]

theorem items_nodup (vs : List Visit) (h : (vs.map Visit.id).Nodup)
    (hk : ∀ x ∈ vs, x.attrKeys.Nodup) : ((vs.flatMap Visit.items).map (·.1)).Nodup := by
  induction vs with
  | nil => simp
  | cons x vs ih =>
    rw [List.map_cons, List.nodup_cons] at h
    rw [List.flatMap_cons, List.map_append, List.nodup_append]
    refine ⟨?_, ih h.2 (fun y hy => hk y (by simp [hy])), ?_⟩
    · rw [Visit.items_keys]
      exact List.Pairwise.map _ (fun a b hab e => hab (by simpa using e)) (hk x (by simp))
    · intro a ha b hb e
      rw [Visit.items_keys] at ha
      obtain ⟨k, _, rfl⟩ := List.mem_map.1 ha
      obtain ⟨p, hp, rfl⟩ := List.mem_map.1 hb
      obtain ⟨y, hy, hpy⟩ := List.mem_flatMap.1 hp
      have : p.1 ∈ y.items.map (·.1) := List.mem_map_of_mem hpy
      rw [Visit.items_keys] at this
      obtain ⟨k', _, he⟩ := List.mem_map.1 this
      rw [← he] at e
      simp only [Prod.mk.injEq] at e
      apply h.1
      have hid : y.id = x.id := Prod.ext e.1.symm e.2.1.symm
      rw [← hid]
      exact List.mem_map_of_mem hy

mutual
theorem visits_need (path : List Bytes) (g : HGroup) : ((visits path g).map Visit.need).sum = g.need := by
  match g with
  | .mk i subs =>
    simp only [visits, List.map_append, List.sum_append_nat, List.map_map, HGroup.need,
      visitsL_need path subs, List.map_cons, List.map_nil, List.sum_cons, List.sum_nil, Visit.need]
    rfl
theorem visitsL_need (path : List Bytes) (gs : List HGroup) :
    ((visitsL path gs).map Visit.need).sum = HGroup.needL gs := by
  match gs with
  | [] => rfl
  | g :: gs =>
    simp only [visitsL, List.map_append, List.sum_append_nat, HGroup.needL, visits_need _ g,
      visitsL_need path gs]
end

/-! ### Dimensions -/

mutual
theorem getDimsT_take (v : TVal) (n : Nat) : getDimsLimitedT v n = (getDimsT v).take n := by
  match v with
  | .num .. | .str _ | .opaque _ | .compound .. | .field .. | .nil => simp [getDimsLimitedT, getDimsT]
  | .enum v _ _ => simpa only [getDimsLimitedT, getDimsT] using getDimsT_take v n
  | .slice _ xs =>
    simp only [getDimsLimitedT, getDimsT]
    cases n with
    | zero => simp
    | succ n => simp [getDimsHeadT_take xs n]
theorem getDimsHeadT_take (xs : List TVal) (n : Nat) : getDimsLimitedHeadT xs n = (getDimsHeadT xs).take n := by
  match xs with
  | [] => simp [getDimsLimitedHeadT, getDimsHeadT]
  | x :: _ => simp [getDimsLimitedHeadT, getDimsHeadT, getDimsT_take x n]
end

mutual
theorem getDims_take (v : GoVal) (n : Nat) : getDimsLimited v n = (getDims v).take n := by
  match v with
  | .num _ _ => simp [getDimsLimited, getDims]
  | .str _ => simp [getDimsLimited, getDims]
  | .other _ => simp [getDimsLimited, getDims]
  | .user u => simpa only [getDimsLimited, getDims] using getDimsT_take u n
  | .slice _ xs =>
    simp only [getDimsLimited, getDims]
    cases n with
    | zero => simp
    | succ n => simp [getDimsHead_take xs n]
theorem getDimsHead_take (xs : List GoVal) (n : Nat) :
    getDimsLimitedHead xs n = (getDimsHead xs).take n := by
  match xs with
  | [] => simp [getDimsLimitedHead, getDimsHead]
  | x :: _ => simp [getDimsLimitedHead, getDimsHead, getDims_take x n]
end

theorem varOK_shape {n : Nat} {v : GoVal} (h : VarOK n v) :
    (getDimsLimited v n).length = n ∧ ∀ d ∈ getDimsLimited v n, d < 2 ^ 63 := by
  cases h with
  | plain _ _ h =>
    cases h with
    | num k dims v hv hs =>
      rw [getDimsLimited_rect (fun x ⟨_, e, _⟩ => by rw [e]; rfl) hv hs.pos]
      exact ⟨rfl, hs.fits⟩
    | str s => exact ⟨rfl, by simp [getDimsLimited]⟩
  | strs dims v hv hne hs =>
    rw [getDimsLimited_rect (fun x ⟨_, e, _⟩ => by rw [e]; rfl) hv hs.pos]
    exact ⟨rfl, hs.fits⟩
  | rows k dims v hv hs hpos =>
    rw [getDimsLimited_rect (fun x ⟨_, e, _⟩ => by rw [e]; rfl) hv hs.pos]
    exact ⟨rfl, hs.fits⟩

theorem varAny_shape {n : Nat} {v : GoVal} (h : VarAny n v) :
    (getDimsLimited v n).length = n ∧ ∀ d ∈ getDimsLimited v n, d < 2 ^ 63 := by
  cases h with
  | common _ _ h => exact varOK_shape h
  | user w dims v hv hr hpos hs hroom =>
    rw [getDimsLimited, (var_user hv).1.2.2]
    exact ⟨rfl, hs.fits⟩

/-- The variable has this dimension, with this length. -/
def HasDim (v : HVar) (d : Bytes) (s : Nat) : Prop :=
  ∃ i : Nat, v.dims[i]? = some d ∧ s = ((getDims v.val)[i]?).getD 0

theorem HasDim.lt {v : HVar} {d : Bytes} {s : Nat} (h : HasDim v d s) (hv : VarAny v.dims.length v.val) :
    s < 2 ^ 63 := by
  obtain ⟨i, h1, rfl⟩ := h
  have hi : i < v.dims.length := by
    by_cases h : i < v.dims.length
    · exact h
    · rw [List.getElem?_eq_none (by omega)] at h1
      cases h1
  obtain ⟨h2, h3⟩ := varAny_shape hv
  have e : (getDims v.val)[i]? = (getDimsLimited v.val v.dims.length)[i]? := by
    rw [getDims_take, List.getElem?_take_of_lt hi]
  rw [e, List.getElem?_eq_getElem (by omega)]
  exact h3 _ (List.getElem_mem _)

/-- What collecting dimensions does: the new entries are dimensions of the variables `P`. -/
structure DimStep (acc acc' : List (Bytes × Nat)) (P : HVar → Prop) : Prop where
  nodup : (acc.map (·.1)).Nodup → (acc'.map (·.1)).Nodup
  sub : ∀ x ∈ acc, x ∈ acc'
  new : ∀ x ∈ acc', x ∈ acc ∨ x.1 ≠ [] ∧ ∃ v, P v ∧ HasDim v x.1 x.2
  all : ∀ v, P v → ∀ d ∈ v.dims, d ≠ [] → d ∈ acc'.map (·.1)

theorem DimStep.trans {a b c : List (Bytes × Nat)} {P Q : HVar → Prop} (h1 : DimStep a b P)
    (h2 : DimStep b c Q) : DimStep a c (fun v => P v ∨ Q v) := by
  refine ⟨fun h => h2.nodup (h1.nodup h), fun x hx => h2.sub x (h1.sub x hx), ?_, ?_⟩
  · intro x hx
    rcases h2.new x hx with h | ⟨hne, v, hv, hd⟩
    · rcases h1.new x h with h | ⟨hne, v, hv, hd⟩
      · exact .inl h
      · exact .inr ⟨hne, v, .inl hv, hd⟩
    · exact .inr ⟨hne, v, .inr hv, hd⟩
  · rintro v (hv | hv) d hd hne
    · obtain ⟨x, hx, rfl⟩ := List.mem_map.1 (h1.all v hv d hd hne)
      exact List.mem_map_of_mem (h2.sub x hx)
    · exact h2.all v hv d hd hne

theorem DimStep.congr {a b : List (Bytes × Nat)} {P Q : HVar → Prop} (h : DimStep a b P)
    (hpq : ∀ v, P v ↔ Q v) : DimStep a b Q := by
  have : P = Q := funext fun v => propext (hpq v)
  rwa [← this]

theorem addDims_step (v : HVar) : ∀ (ds done : List Bytes) (acc : List (Bytes × Nat)),
    v.dims = done ++ ds →
    let acc' := addDims (getDims v.val) done.length ds acc
    ((acc.map (·.1)).Nodup → (acc'.map (·.1)).Nodup) ∧ (∀ x ∈ acc, x ∈ acc') ∧
      (∀ x ∈ acc', x ∈ acc ∨ x.1 ≠ [] ∧ HasDim v x.1 x.2) ∧
      ∀ d ∈ ds, d ≠ [] → d ∈ acc'.map (·.1) := by
  intro ds
  induction ds with
  | nil =>
    intro done acc _
    exact ⟨id, fun _ h => h, fun _ h => .inl h, by simp⟩
  | cons d ds ih =>
    intro done acc hv
    have hd : v.dims[done.length]? = some d := by rw [hv]; simp
    have hlen : (done ++ [d]).length = done.length + 1 := by simp
    simp only [addDims]
    rw [← hlen]
    by_cases hc : d = [] ∨ (acc.any fun x => x.1 == d) = true
    · rw [if_pos hc]
      obtain ⟨h1, h2, h3, h4⟩ := ih (done ++ [d]) acc (by rw [hv]; simp)
      refine ⟨h1, h2, h3, ?_⟩
      intro e he hne
      rw [List.mem_cons] at he
      rcases he with rfl | he
      · rcases hc with hc | hc
        · exact absurd hc hne
        · obtain ⟨x, hx, hxe⟩ := List.any_eq_true.1 hc
          rw [List.mem_map]
          exact ⟨x, h2 x hx, by simpa using hxe⟩
      · exact h4 e he hne
    · rw [if_neg hc]
      rw [not_or] at hc
      obtain ⟨h1, h2, h3, h4⟩ := ih (done ++ [d])
        (acc ++ [(d, ((getDims v.val)[done.length]?).getD 0)]) (by rw [hv]; simp)
      refine ⟨?_, fun x hx => h2 x (by simp [hx]), ?_, ?_⟩
      · intro hn
        apply h1
        rw [List.map_append, List.nodup_append]
        refine ⟨hn, by simp, ?_⟩
        intro a ha b hb e
        simp only [List.map_cons, List.map_nil, List.mem_singleton] at hb
        subst hb
        obtain ⟨x, hx, hxe⟩ := List.mem_map.1 ha
        apply hc.2
        rw [List.any_eq_true]
        exact ⟨x, hx, by simp [hxe, e]⟩
      · intro x hx
        rcases h3 x hx with h | h
        · rw [List.mem_append, List.mem_singleton] at h
          rcases h with h | rfl
          · exact .inl h
          · exact .inr ⟨hc.1, done.length, hd, rfl⟩
        · exact .inr h
      · intro e he hne
        rw [List.mem_cons] at he
        rcases he with rfl | he
        · rw [List.mem_map]
          exact ⟨_, h2 (e, ((getDims v.val)[done.length]?).getD 0) (by simp), rfl⟩
        · exact h4 e he hne

theorem addVarDims_step (vs : List HVar) (acc : List (Bytes × Nat)) (hs : ∀ v ∈ vs, v.isScale = false) :
    DimStep acc (addVarDims vs acc) (· ∈ vs) := by
  induction vs generalizing acc with
  | nil => exact ⟨id, fun _ h => h, fun _ h => .inl h, by simp⟩
  | cons v vs ih =>
    simp only [addVarDims, hs v (by simp), Bool.false_eq_true, ↓reduceIte]
    obtain ⟨h1, h2, h3, h4⟩ := addDims_step v v.dims [] acc rfl
    have h : DimStep acc (addDims (getDims v.val) 0 v.dims acc) (· = v) := by
      refine ⟨h1, h2, ?_, ?_⟩
      · intro x hx
        rcases h3 x hx with h | h
        · exact .inl h
        · exact .inr ⟨h.1, v, rfl, h.2⟩
      · rintro w rfl d hd hne
        exact h4 d hd hne
    exact (h.trans (ih _ (fun w hw => hs w (by simp [hw])))).congr (by simp)

mutual
theorem collectDims_step (path : List Bytes) (g : HGroup) (acc : List (Bytes × Nat))
    (hs : ∀ p v, Visit.var p v ∈ visits path g → v.isScale = false) :
    DimStep acc (collectDims g acc) (fun v => ∃ p, Visit.var p v ∈ visits path g) := by
  match g with
  | .mk i subs =>
    have h1 := addVarDims_step i.vars acc (fun v hv => hs path v (by
      simp [visits, hv]))
    have h2 := collectDimsL_step path subs (addVarDims i.vars acc) (fun p v hm => hs p v (by
      simp [visits, hm]))
    refine (h1.trans h2).congr (fun v => ?_)
    simp only [visits, List.mem_append, List.mem_map, List.mem_singleton]
    constructor
    · rintro (h | ⟨p, h⟩)
      · exact ⟨path, .inl (.inl ⟨v, h, rfl⟩)⟩
      · exact ⟨p, .inr h⟩
    · rintro ⟨p, (⟨w, hw, he⟩ | he) | h⟩
      · cases he
        exact .inl hw
      · cases he
      · exact .inr ⟨p, h⟩
theorem collectDimsL_step (path : List Bytes) (gs : List HGroup) (acc : List (Bytes × Nat))
    (hs : ∀ p v, Visit.var p v ∈ visitsL path gs → v.isScale = false) :
    DimStep acc (collectDimsL gs acc) (fun v => ∃ p, Visit.var p v ∈ visitsL path gs) := by
  match gs with
  | [] => exact ⟨id, fun _ h => h, fun _ h => .inl h, by simp [visitsL]⟩
  | g :: gs =>
    have h1 := collectDims_step (path ++ [g.name]) g acc (fun p v hm => hs p v (by
      simp [visitsL, hm]))
    have h2 := collectDimsL_step path gs (collectDims g acc) (fun p v hm => hs p v (by
      simp [visitsL, hm]))
    refine (h1.trans h2).congr (fun v => ?_)
    simp only [visitsL, List.mem_append]
    constructor
    · rintro (⟨p, h⟩ | ⟨p, h⟩)
      · exact ⟨p, .inl h⟩
      · exact ⟨p, .inr h⟩
    · rintro ⟨p, h | h⟩
      · exact .inl ⟨p, h⟩
      · exact .inr ⟨p, h⟩
end

mutual
theorem mem_dimsOf (path : List Bytes) (g : HGroup) (d : Bytes) :
    d ∈ dimsOf g ↔ ∃ p v, Visit.var p v ∈ visits path g ∧ d ∈ v.dims := by
  match g with
  | .mk i subs =>
    simp only [dimsOf, List.mem_append, List.mem_flatMap, mem_dimsOfL path subs d, visits,
      List.mem_map, List.mem_singleton]
    constructor
    · rintro (⟨v, hv, hd⟩ | ⟨p, v, hv, hd⟩)
      · exact ⟨path, v, .inl (.inl ⟨v, hv, rfl⟩), hd⟩
      · exact ⟨p, v, .inr hv, hd⟩
    · rintro ⟨p, v, (⟨w, hw, he⟩ | he) | h, hd⟩
      · cases he
        exact .inl ⟨v, hw, hd⟩
      · cases he
      · exact .inr ⟨p, v, h, hd⟩
theorem mem_dimsOfL (path : List Bytes) (gs : List HGroup) (d : Bytes) :
    d ∈ dimsOfL gs ↔ ∃ p v, Visit.var p v ∈ visitsL path gs ∧ d ∈ v.dims := by
  match gs with
  | [] => simp [dimsOfL, visitsL]
  | g :: gs =>
    simp only [dimsOfL, List.mem_append, mem_dimsOf (path ++ [g.name]) g d, mem_dimsOfL path gs d, visitsL]
    constructor
    · rintro (⟨p, v, h, hd⟩ | ⟨p, v, h, hd⟩)
      · exact ⟨p, v, .inl h, hd⟩
      · exact ⟨p, v, .inr h, hd⟩
    · rintro ⟨p, v, h | h, hd⟩
      · exact .inl ⟨p, v, h, hd⟩
      · exact .inr ⟨p, v, h, hd⟩
end

/-! ### Dimension scales -/

theorem nodup_find {vars : List HVar} (h : (vars.map (·.name)).Nodup) {v : HVar} (hv : v ∈ vars) :
    vars.find? (·.name == v.name) = some v := by
  induction vars with
  | nil => simp at hv
  | cons u vars ih =>
    rw [List.map_cons, List.nodup_cons] at h
    rw [List.mem_cons] at hv
    rw [List.find?_cons]
    rcases hv with rfl | hv
    · simp
    · have : u.name ≠ v.name := fun e => h.1 (e ▸ List.mem_map_of_mem hv)
      have hb : (u.name == v.name) = false := by simpa using this
      rw [hb]
      exact ih h.2 hv

theorem mem_setVar (vars : List HVar) (w x : HVar) :
    x ∈ setVar vars w ↔ x = w ∨ (x ∈ vars ∧ x.name ≠ w.name) := by
  unfold setVar
  by_cases h : (vars.any fun v => v.name == w.name) = true
  · rw [if_pos h, List.mem_map]
    constructor
    · rintro ⟨v, hv, he⟩
      split at he
      · exact .inl he.symm
      · rename_i hne
        subst he
        exact .inr ⟨hv, hne⟩
    · rintro (rfl | ⟨hx, hne⟩)
      · obtain ⟨v, hv, he⟩ := List.any_eq_true.1 h
        exact ⟨v, hv, by rw [if_pos (by simpa using he)]⟩
      · exact ⟨x, hx, by rw [if_neg hne]⟩
  · rw [if_neg h, List.mem_append, List.mem_singleton]
    have h' : ∀ v ∈ vars, v.name ≠ w.name := by
      intro v hv e
      apply h
      rw [List.any_eq_true]
      exact ⟨v, hv, by simp [e]⟩
    constructor
    · rintro (hx | rfl)
      · exact .inr ⟨hx, h' x hx⟩
      · exact .inl rfl
    · rintro (rfl | ⟨hx, _⟩)
      · exact .inr rfl
      · exact .inl hx

theorem setVar_need (vars : List HVar) (w : HVar)
    (h : w.need = 0 ∨ ((∃ v ∈ vars, v.name = w.name) ∧ ∀ v ∈ vars, v.name = w.name → w.need ≤ v.need)) :
    ((setVar vars w).map HVar.need).sum ≤ (vars.map HVar.need).sum := by
  have hmap : (∀ v ∈ vars, v.name = w.name → w.need ≤ v.need) →
      ((vars.map fun v => if v.name = w.name then w else v).map HVar.need).sum ≤
        (vars.map HVar.need).sum := by
    intro hv
    clear h
    induction vars with
    | nil => simp
    | cons v vs ih =>
      have := ih (fun x hx => hv x (by simp [hx]))
      simp only [List.map_cons, List.sum_cons]
      split
      · rename_i e
        have := hv v (by simp) e
        omega
      · omega
  unfold setVar
  split
  · refine hmap ?_
    rcases h with h | h
    · intro v _ _
      omega
    · exact h.2
  · rename_i hany
    rcases h with h | ⟨⟨v, hv, he⟩, _⟩
    · simp [h]
    · exact absurd (List.any_eq_true.2 ⟨v, hv, by simp [he]⟩) hany

theorem setVar_length (vars : List HVar) (w : HVar) : (setVar vars w).length ≤ vars.length + 1 := by
  unfold setVar
  split <;> simp

/-- What stands for dimension number `i` among the variables. -/
def ScaleFor (vars : List HVar) (i : Nat) (d : Bytes) (s : Nat) (w : HVar) : Prop :=
  (∃ v ∈ vars, v.name = d ∧ w = promoted i v) ∨ ((∀ v ∈ vars, v.name ≠ d) ∧ w = synthetic i d s)

theorem ScaleFor.name {vars : List HVar} {i : Nat} {d : Bytes} {s : Nat} {w : HVar}
    (h : ScaleFor vars i d s w) : w.name = d := by
  rcases h with ⟨v, _, hn, rfl⟩ | ⟨_, rfl⟩
  · exact hn
  · rfl

theorem ScaleFor.scale {vars : List HVar} {i : Nat} {d : Bytes} {s : Nat} {w : HVar}
    (h : ScaleFor vars i d s w) : w.isScale = true := by
  rcases h with ⟨v, _, hn, rfl⟩ | ⟨_, rfl⟩ <;> rfl

/-- What `makeScales` returns. -/
structure ScalesMade (vars : List HVar) (i : Nat) (ds : List (Bytes × Nat)) (vars' : List HVar) : Prop where
  nodup : (vars'.map (·.name)).Nodup
  mem : ∀ w, w ∈ vars' ↔ (w ∈ vars ∧ w.name ∉ ds.map (·.1)) ∨
    ∃ k d s, ds[k]? = some (d, s) ∧ ScaleFor vars (i + k) d s w
  len : vars'.length ≤ vars.length + ds.length
  need : (vars'.map HVar.need).sum ≤ (vars.map HVar.need).sum

theorem strsInL_replicate (n : Nat) : strsInL (List.replicate n (.num .i8 0)) = [] := by
  induction n with
  | zero => rfl
  | succ n ih => simp [List.replicate_succ, strsInL, strsIn, ih]

theorem seqsInL_replicate (n m : Nat) : seqsInL (List.replicate n (.num .i8 0)) m = 0 := by
  induction n with
  | zero => rfl
  | succ n ih => simp [List.replicate_succ, seqsInL, seqsIn, ih]

theorem synthetic_need (i : Nat) (d : Bytes) (s : Nat) : (synthetic i d s).need = 0 := by
  simp [HVar.need, synthetic, varNeed, heapStrs, strsInL_replicate, seqsIn, seqsInL_replicate,
    attrsNeed, attrNeed, slicesIn, dimid]

theorem promoted_need (i : Nat) (v : HVar) : (promoted i v).need ≤ v.need := by
  simp only [HVar.need, promoted, attrsNeed, Option.getD_some, scaleAttrs, List.cons_append,
    List.nil_append, List.map_cons, List.sum_cons, attrNeed, heapStrs, slicesIn, dimid, List.length_nil]
  simp

theorem makeScales_ok : ∀ (ds : List (Bytes × Nat)) (i : Nat) (vars : List HVar),
    (ds.map (·.1)).Nodup → (vars.map (·.name)).Nodup →
    (∀ v ∈ vars, v.name ∈ ds.map (·.1) → v.isScale = false ∧ ((v.attrs.getD []).map (·.1)).Nodup ∧
      ∀ p ∈ v.attrs.getD [], p.1 ∉ reservedKeys) →
    ∃ vars', makeScales i ds vars = .ok vars' ∧ ScalesMade vars i ds vars' := by
  intro ds
  induction ds with
  | nil =>
    intro i vars _ hn _
    exact ⟨vars, rfl, hn, fun w => by simp, by simp, Nat.le_refl _⟩
  | cons p ds ih =>
    obtain ⟨d, size⟩ := p
    intro i vars hd hn hv
    rw [List.map_cons, List.nodup_cons] at hd
    -- the variable that stands for the first dimension
    obtain ⟨w, hstep, hw, hneed⟩ : ∃ w, makeScales i ((d, size) :: ds) vars = makeScales (i + 1) ds (setVar vars w) ∧
        (∀ x, ScaleFor vars i d size x ↔ x = w) ∧
        ((setVar vars w).map HVar.need).sum ≤ (vars.map HVar.need).sum := by
      cases hf : vars.find? (·.name == d) with
      | none =>
        have hnone : ∀ v ∈ vars, v.name ≠ d := by
          intro v hv e
          have := List.find?_eq_none.1 hf v hv
          simp [e] at this
        refine ⟨synthetic i d size, by simp only [makeScales, hf], ?_, ?_⟩
        · intro x
          constructor
          · rintro (⟨v, hv, hvd, _⟩ | ⟨_, rfl⟩)
            · exact absurd hvd (hnone v hv)
            · rfl
          · rintro rfl
            exact .inr ⟨hnone, rfl⟩
        · exact setVar_need _ _ (.inl (synthetic_need i d size))
      | some v =>
        have hvm : v ∈ vars := List.mem_of_find?_eq_some hf
        have hvd : v.name = d := by simpa using List.find?_some hf
        obtain ⟨g1, g2, g3⟩ := hv v hvm (by simp [hvd])
        have huniq : ∀ x ∈ vars, x.name = d → x = v := by
          intro x hx hxd
          have h2 := nodup_find (vars := vars) hn hx
          rw [hxd, hf] at h2
          exact (Option.some.inj h2).symm
        refine ⟨promoted i v, ?_, ?_, ?_⟩
        · simp only [makeScales, hf, g1, Bool.false_eq_true, ↓reduceIte, promote_ok i v g2 g3]
        · intro x
          constructor
          · rintro (⟨u, hu, hud, rfl⟩ | ⟨hall, _⟩)
            · rw [huniq u hu hud]
            · exact absurd hvd (hall v hvm)
          · rintro rfl
            exact .inl ⟨v, hvm, hvd, rfl⟩
        · refine setVar_need _ _ (.inr ⟨⟨v, hvm, rfl⟩, ?_⟩)
          intro x hx hxn
          rw [huniq x hx (hxn.trans hvd)]
          exact promoted_need i v
    have hwn : w.name = d := ((hw w).2 rfl).name
    obtain ⟨vars', h1, h2⟩ := ih (i + 1) (setVar vars w) hd.2 (setVar_nodup w hn) (by
      intro x hx hxd
      rw [mem_setVar] at hx
      rcases hx with rfl | hx
      · exact absurd hxd (hwn ▸ hd.1)
      · exact hv x hx.1 (by simp [hxd]))
    refine ⟨vars', hstep.trans h1, h2.nodup, ?_, ?_, Nat.le_trans h2.need hneed⟩
    · have hsf : ∀ (k j : Nat) (e : Bytes) (s : Nat) (x : HVar), ds[k]? = some (e, s) →
          (ScaleFor (setVar vars w) j e s x ↔ ScaleFor vars j e s x) := by
        intro k j e s x hk
        have hed : e ≠ d := by
          intro he
          apply hd.1
          rw [← he]
          exact List.mem_map.2 ⟨_, List.mem_of_getElem? hk, rfl⟩
        have hmem : ∀ v, v.name = e → (v ∈ setVar vars w ↔ v ∈ vars) := by
          intro v hve
          rw [mem_setVar]
          constructor
          · rintro (rfl | h)
            · exact absurd (hve.symm.trans hwn) hed
            · exact h.1
          · intro h
            exact .inr ⟨h, by rw [hve, hwn]; exact hed⟩
        constructor
        · rintro (⟨v, hv, hve, rfl⟩ | ⟨hall, rfl⟩)
          · exact .inl ⟨v, (hmem v hve).1 hv, hve, rfl⟩
          · exact .inr ⟨fun v hv hve => hall v ((hmem v hve).2 hv) hve, rfl⟩
        · rintro (⟨v, hv, hve, rfl⟩ | ⟨hall, rfl⟩)
          · exact .inl ⟨v, (hmem v hve).2 hv, hve, rfl⟩
          · exact .inr ⟨fun v hv hve => hall v ((hmem v hve).1 hv) hve, rfl⟩
      intro x
      rw [h2.mem x, mem_setVar, hwn, List.map_cons, List.mem_cons, not_or]
      constructor
      · rintro (⟨rfl | ⟨hx, hxd⟩, hnd⟩ | ⟨k, e, s, hk, hx⟩)
        · exact .inr ⟨0, d, size, rfl, (hw x).2 rfl⟩
        · exact .inl ⟨hx, hxd, hnd⟩
        · refine .inr ⟨k + 1, e, s, by simpa using hk, ?_⟩
          rw [hsf k _ e s x hk] at hx
          have : i + (k + 1) = i + 1 + k := by omega
          rw [this]
          exact hx
      · rintro (⟨hx, hxd, hnd⟩ | ⟨k, e, s, hk, hx⟩)
        · exact .inl ⟨.inr ⟨hx, hxd⟩, hnd⟩
        · cases k with
          | zero =>
            simp only [List.getElem?_cons_zero, Option.some.injEq, Prod.mk.injEq] at hk
            obtain ⟨rfl, rfl⟩ := hk
            have := (hw x).1 hx
            subst this
            exact .inl ⟨.inl rfl, by rw [hwn]; exact hd.1⟩
          | succ k =>
            simp only [List.getElem?_cons_succ] at hk
            refine .inr ⟨k, e, s, hk, ?_⟩
            rw [hsf k _ e s x hk]
            have : i + 1 + k = i + (k + 1) := by omega
            rw [this]
            exact hx
    · have := setVar_length vars w
      have := h2.len
      simp only [List.length_cons]
      omega

end Verif.H5
