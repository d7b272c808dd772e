import Verif.Lemmas.H5Ready
import Verif.Lemmas.H5Flat
import Verif.Lemmas.H5Path
/-!
The calls on a file that was written.
-/
namespace Verif.H5

/-! ### Attributes -/

/-- A parsed attribute. -/
structure ParsedAs (heap : HeapFn) (q : Attr × Option GoVal) (p : Bytes × GoVal) : Prop where
  name : q.1.name = p.1
  val : q.2 = some p.2 ∨ q.2 = none ∧ attrRaw heap [0] q.1 = .ok p.2
  str : ∀ s, p.2 = .str s → q.2 = some p.2
  list : p.1 = kDimList → q.2 = some p.2

theorem parseAttrs_ok (heap : HeapFn) (i : Info) (as : List Attr) (ps : List (Bytes × GoVal))
    (h : All2 (AttrHolds heap) as ps) (hf : ∃ f, attrFill i = .ok f) (hc : ∀ p ∈ ps, Common p.2) :
    ∃ qs, parseAttrs heap i as = .ok qs ∧ All2 (ParsedAs heap) qs ps ∧ qs.map (·.1) = as := by
  obtain ⟨f, hf⟩ := hf
  induction as generalizing ps with
  | nil =>
    cases ps with
    | nil => exact ⟨[], rfl, All2.nil _, rfl⟩
    | cons p ps => exact absurd h.1 (by simp)
  | cons a as ih =>
    cases ps with
    | nil => exact absurd h.1 (by simp)
    | cons p ps =>
      obtain ⟨h1, h2⟩ := h.of_cons
      obtain ⟨qs, g1, g2, g3⟩ := ih ps h2 (fun q hq => hc q (by simp [hq]))
      have hcp := hc p (by simp)
      have hraw := h1.raw hcp f
      have hp : ∃ v, parseAttr heap i a = .ok v ∧ ParsedAs heap (a, v) p := by
        cases hd : a.data with
        | value s =>
          have : p.2 = .str s := by
            simp only [attrRaw, hd, Res.ok.injEq] at hraw
            exact hraw.symm
          exact ⟨some (.str s), by simp only [parseAttr, hd], h1.name, .inl (by rw [this]),
            fun _ _ => by rw [this], fun _ => by rw [this]⟩
        | none =>
          refine ⟨none, by simp only [parseAttr, hd], h1.name, .inr ⟨rfl, h1.raw hcp [0]⟩, ?_, ?_⟩
          · intro s hs
            rw [h1.str s hs] at hd
            cases hd
          · intro e
            exact absurd hd (h1.list e)
        | df b =>
          exact ⟨some p.2, by simp only [parseAttr, hd, hf, hraw, Res.map], h1.name, .inl rfl,
            fun _ _ => rfl, fun _ => rfl⟩
      obtain ⟨v, hv, hpa⟩ := hp
      exact ⟨(a, v) :: qs, by simp only [parseAttrs, hv, g1], g2.cons hpa, by simp [g3]⟩

/-- The attributes that are shown. -/
def visible (ps : List (Bytes × GoVal)) : List (Bytes × GoVal) :=
  ps.filter fun p => !hiddenAttrs.contains p.1

theorem collectAttrs_ok (heap : HeapFn) (qs : List (Attr × Option GoVal)) (ps : List (Bytes × GoVal))
    (h : All2 (ParsedAs heap) qs ps) (m : GoMap GoVal)
    (hn : (m.map (·.1) ++ (visible ps).map (·.1)).Nodup) :
    collectAttrs heap qs m = .ok (m ++ (visible ps).map fun p => (p.1, undoScalar p.2)) := by
  induction qs generalizing ps m with
  | nil =>
    cases ps with
    | nil => simp [collectAttrs, visible]
    | cons p ps => exact absurd h.1 (by simp)
  | cons q qs ih =>
    cases ps with
    | nil => exact absurd h.1 (by simp)
    | cons p ps =>
      obtain ⟨h1, h2⟩ := h.of_cons
      obtain ⟨a, v⟩ := q
      have hname : a.name = p.1 := h1.name
      simp only [collectAttrs]
      by_cases hc : hiddenAttrs.contains p.1 = true
      · have hvis : visible (p :: ps) = visible ps := by
          simp only [visible]
          rw [List.filter_cons_of_neg (by simp only [hc]; simp)]
        rw [if_pos (by rw [hname]; exact hc), hvis]
        rw [hvis] at hn
        exact ih ps h2 m hn
      · have hvis : visible (p :: ps) = p :: visible ps := by
          have hc' : hiddenAttrs.contains p.1 = false := by simpa using hc
          simp only [visible]
          rw [List.filter_cons_of_pos (by simp only [hc']; rfl)]
        rw [if_neg (by rw [hname]; exact hc), hvis]
        rw [hvis] at hn
        have hk : a.name ∉ GoMap.keys m := by
          intro hk
          rw [List.nodup_append] at hn
          exact hn.2.2 a.name hk p.1 (by simp) hname
        have hstep : collectAttrs heap qs (m.set a.name (undoScalar p.2)) =
            .ok (m ++ (p :: visible ps).map fun p => (p.1, undoScalar p.2)) := by
          rw [GoMap.set_of_not_mem _ _ _ hk, ih ps h2]
          · simp [hname]
          · simpa [hname] using hn
        rcases h1.val with h | ⟨h, h'⟩
        · simp only at h
          subst h
          exact hstep
        · simp only at h h'
          subst h
          simp only [h']
          exact hstep

theorem getAttributes_ok (heap : HeapFn) (qs : List (Attr × Option GoVal)) (ps : List (Bytes × GoVal))
    (h : All2 (ParsedAs heap) qs ps) (hn : ((visible ps).map (·.1)).Nodup) :
    getAttributes heap qs =
      .ok (((visible ps).map fun p => (p.1, undoScalar p.2)).filter fun p => p.1 ≠ ncpKey) := by
  rw [getAttributes, collectAttrs_ok heap qs ps h [] (by simpa using hn)]
  rfl

/-! ### Kinds of objects -/

theorem any_name (as : List Attr) (k : Bytes) :
    (as.any fun a => a.name == k) = true ↔ k ∈ as.map (·.name) := by
  rw [List.any_eq_true, List.mem_map]
  constructor
  · rintro ⟨a, ha, he⟩
    exact ⟨a, ha, by simpa using he⟩
  · rintro ⟨a, ha, he⟩
    exact ⟨a, ha, by simp [he]⟩

theorem holds_names {heap : HeapFn} {as : List Attr} {ps : List (Bytes × GoVal)}
    (h : All2 (AttrHolds heap) as ps) : as.map (·.name) = ps.map (·.1) :=
  h.map_eq fun _ _ h => h.name

theorem classify_class {heap : HeapFn} {as : List Attr} {ps : List (Bytes × GoVal)}
    (h : All2 (AttrHolds heap) as ps) :
    ((classify as).hasClass = true ↔ kClass ∈ ps.map (·.1)) ∧
      ((classify as).hasCoordinates = true ↔ kCoordinates ∈ ps.map (·.1)) := by
  simp only [classify]
  rw [any_name, any_name, holds_names h]
  exact ⟨Iff.rfl, Iff.rfl⟩

theorem classify_name {heap : HeapFn} {as : List Attr} {ps : List (Bytes × GoVal)}
    (h : All2 (AttrHolds heap) as ps) (s : Bytes) (hs : ∀ p ∈ ps, p.1 = kName → p.2 = .str s)
    (hm : kName ∈ ps.map (·.1)) :
    (classify as).hasName = !dimMarker.isPrefixOf s := by
  simp only [classify]
  rw [Bool.eq_iff_iff, List.any_eq_true]
  constructor
  · rintro ⟨a, ha, hc⟩
    obtain ⟨p, hp, hh⟩ := h.left ha
    simp only [Bool.and_eq_true, beq_iff_eq] at hc
    rw [hh.str s (hs p hp (hh.name ▸ hc.1))] at hc
    exact hc.2
  · intro hc
    obtain ⟨p, hp, he⟩ := List.mem_map.1 hm
    obtain ⟨a, ha, hh⟩ := h.right hp
    refine ⟨a, ha, ?_⟩
    rw [hh.str s (hs p hp he), hh.name, he]
    simpa using hc

/-! ### Dimension names -/

/-- The addresses and names of all objects. -/
theorem addrIndex_fst (o : Obj) : (addrIndex o).map (·.1) = o.info.addr :: addrsBelow o := by
  have hL : ∀ os, (∀ o ∈ os, (addrIndex o).map (·.1) = o.info.addr :: addrsBelow o) →
      (addrIndexL os).map (·.1) = addrsBelowL os := by
    intro os
    induction os with
    | nil => intro _; rfl
    | cons o os ih =>
      intro h
      rw [addrIndexL, addrsBelowL, List.map_append, h o (by simp), ih (fun x hx => h x (by simp [hx]))]
  induction o using Obj.rec (motive_2 := fun os => ∀ o ∈ os, (addrIndex o).map (·.1) = o.info.addr :: addrsBelow o) with
  | mk i kids ih =>
    rw [addrIndex, List.map_cons, hL kids ih]
    rfl
  | nil => rename_i h; simp at h
  | cons o os h1 h2 =>
    rename_i x hx
    rcases List.mem_cons.1 hx with rfl | hx
    · exact h1
    · exact h2 x hx

theorem lookup_nodup {α : Type} (l : List (Nat × α)) (h : (l.map (·.1)).Nodup) {p : Nat × α} (hp : p ∈ l) :
    l.lookup p.1 = some p.2 := by
  induction l with
  | nil => simp at hp
  | cons x l ih =>
    obtain ⟨k, v⟩ := x
    rw [List.map_cons, List.nodup_cons] at h
    rw [List.mem_cons] at hp
    rcases hp with rfl | hp
    · simp [List.lookup_cons]
    · have hne : (p.1 == k) = false := by
        rw [beq_eq_false_iff_ne]
        intro e
        exact h.1 (e ▸ List.mem_map_of_mem (f := (·.1)) hp)
      rw [List.lookup_cons, hne]
      exact ih h.2 hp

theorem nameAt_ok (o k : Obj) (hnd : (o.info.addr :: addrsBelow o).Nodup) (hk : k ∈ o.kids) :
    nameAt (addrIndex o) k.info.addr = k.info.name := by
  have hmem : (k.info.addr, k.info.name) ∈ addrIndex o := by
    obtain ⟨i, kids⟩ := o
    rw [addrIndex]
    simp only [Obj.kids] at hk
    refine List.mem_cons_of_mem _ ?_
    clear hnd
    induction kids with
    | nil => simp at hk
    | cons x kids ih =>
      rw [addrIndexL, List.mem_append]
      rcases List.mem_cons.1 hk with rfl | hk
      · left
        cases k
        rw [addrIndex]
        exact List.mem_cons_self
      · exact .inr (ih hk)
  have hnd' : ((addrIndex o).reverse.map (·.1)).Nodup := by
    rw [List.map_reverse, (List.reverse_perm _).nodup_iff, addrIndex_fst]
    exact hnd
  rw [nameAt, lookup_nodup _ hnd' (p := (k.info.addr, k.info.name)) (by simpa using hmem)]
  rfl

theorem listedDims_none (idx : List (Nat × Bytes)) (heap : HeapFn) (qs : List (Attr × Option GoVal))
    (ps : List (Bytes × GoVal)) (h : All2 (ParsedAs heap) qs ps) (hn : kDimList ∉ ps.map (·.1)) :
    listedDims idx qs = .ok [] := by
  have : ∀ q ∈ qs, q.1.name ≠ kDimList := by
    intro q hq e
    obtain ⟨p, hp, hh⟩ := h.left hq
    exact hn (List.mem_map.2 ⟨p, hp, by rw [← hh.name, e]⟩)
  clear h hn
  induction qs with
  | nil => rfl
  | cons q qs ih =>
    rw [listedDims, if_neg (this q (by simp))]
    exact ih (fun x hx => this x (by simp [hx]))

theorem listedDims_append (idx : List (Nat × Bytes)) (qs rs : List (Attr × Option GoVal))
    (h : listedDims idx qs = .ok []) : listedDims idx (qs ++ rs) = listedDims idx rs := by
  induction qs with
  | nil => rfl
  | cons q qs ih =>
    rw [List.cons_append, listedDims]
    rw [listedDims] at h
    by_cases hq : q.1.name = kDimList
    · rw [if_pos hq] at h ⊢
      split at h
      · cases h
      · cases h
      · rename_i ns _
        split at h
        · cases h
        · cases h
        · rename_i ms hms
          simp only [Res.ok.injEq, List.append_eq_nil_iff] at h
          rw [h.2] at hms
          rw [ih hms]
          simp only [h.1, List.nil_append]
          cases listedDims idx rs <;> rfl
    · rw [if_neg hq] at h ⊢
      exact ih h

theorem nameDims_ne (a : Attr) (v : Option GoVal) (as : List (Attr × Option GoVal)) (h : a.name ≠ kName) :
    nameDims ((a, v) :: as) = nameDims as := by
  cases v with
  | none => simp [nameDims, h]
  | some x => cases x <;> simp [nameDims, h]

theorem nameDims_none (heap : HeapFn) (qs : List (Attr × Option GoVal))
    (ps : List (Bytes × GoVal)) (h : All2 (ParsedAs heap) qs ps) (hn : kName ∉ ps.map (·.1)) :
    nameDims qs = .ok [] := by
  have : ∀ q ∈ qs, q.1.name ≠ kName := by
    intro q hq e
    obtain ⟨p, hp, hh⟩ := h.left hq
    exact hn (List.mem_map.2 ⟨p, hp, by rw [← hh.name, e]⟩)
  clear h hn
  induction qs with
  | nil => rfl
  | cons q qs ih =>
    rw [nameDims_ne _ _ _ (this q (by simp))]
    exact ih (fun x hx => this x (by simp [hx]))

theorem nameDims_name (heap : HeapFn) (qs : List (Attr × Option GoVal)) (ps : List (Bytes × GoVal))
    (h : All2 (ParsedAs heap) qs ps) (s : Bytes) (hs : ∀ p ∈ ps, p.1 = kName → p.2 = .str s)
    (hm : kName ∈ ps.map (·.1)) (hd : ¬ dimMarker <+: s) : nameDims qs = .ok [s] := by
  have hd' : dimMarker.isPrefixOf s = false := by
    rw [← Bool.not_eq_true, List.isPrefixOf_iff_prefix]
    exact hd
  induction qs generalizing ps with
  | nil =>
    cases ps with
    | nil => simp at hm
    | cons p ps => exact absurd h.1 (by simp)
  | cons q qs ih =>
    cases ps with
    | nil => simp at hm
    | cons p ps =>
      obtain ⟨h1, h2⟩ := h.of_cons
      obtain ⟨a, v⟩ := q
      have hname : a.name = p.1 := h1.name
      by_cases hk : p.1 = kName
      · have h3 := hs p (by simp) hk
        have h4 := h1.str s h3
        simp only at h4
        rw [h4, h3]
        simp only [nameDims, hname.trans hk, hd', Bool.false_eq_true, ↓reduceIte]
      · rw [nameDims_ne _ _ _ (by rw [hname]; exact hk)]
        refine ih ps h2 (fun x hx => hs x (by simp [hx])) ?_
        rw [List.map_cons, List.mem_cons] at hm
        rcases hm with hm | hm
        · exact absurd hm.symm hk
        · exact hm

/-- The names that a `DIMENSION_LIST` refers to. -/
theorem dimRefs_names (o : Obj) (hnd : (o.info.addr :: addrsBelow o).Nodup) (da : GoMap Nat) (ds : List Bytes)
    (h : ∀ d ∈ ds, d ≠ [] ∧ ∃ k ∈ o.kids, k.info.name = d ∧ da.get d = some k.info.addr ∧ k.info.addr < 2 ^ 63) :
    dimListNames (addrIndex o) (some (dimRefs da ds)) = .ok ds := by
  simp only [dimRefs, dimListNames]
  congr 1
  induction ds with
  | nil => rfl
  | cons d ds ih =>
    obtain ⟨hne, k, hk, hkn, hg, hlt⟩ := h d (by simp)
    rw [List.map_cons, List.flatMap_cons, ih (fun x hx => h x (by simp [hx]))]
    have hm : (da.get d).getD 0 % 2 ^ 64 = k.info.addr := by
      rw [hg, Option.getD_some, Nat.mod_eq_of_lt (by omega)]
    simp only [hm, rowNames, nameAt_ok o k hnd hk, hkn, if_neg hne, List.singleton_append]

/-! ### All attributes of the file -/

/-- Attributes of numbers and strings, without references. -/
def CleanAttrs (as : HAttrs) : Prop :=
  kRefList ∉ (as.getD []).map (·.1) ∧ ∀ p ∈ as.getD [], Common p.2

theorem common_fullAttrs {env : Env} {v : HVar} (h : ∀ p ∈ v.attrs.getD [], Common p.2) :
    ∀ p ∈ fullAttrs env v, Common p.2 := by
  intro p hp
  rw [fullAttrs, List.mem_append] at hp
  rcases hp with hp | hp
  · exact h p hp
  · unfold dimListPair at hp
    split at hp
    · cases hp
    · split at hp
      · rw [List.mem_singleton.1 hp]
        exact trivial
      · cases hp

mutual
/-- No attribute has one of the names that only other writers use. -/
def CleanTree : HGroup → Prop
  | .mk i subs => (CleanAttrs i.attrs) ∧
      (∀ v ∈ i.vars, CleanAttrs v.attrs) ∧ CleanTrees subs
/-- The subgroups. -/
def CleanTrees : List HGroup → Prop
  | [] => True
  | g :: gs => CleanTree g ∧ CleanTrees gs
end

theorem cleanTrees_iff (gs : List HGroup) : CleanTrees gs ↔ ∀ g ∈ gs, CleanTree g := by
  induction gs with
  | nil => simp [CleanTrees]
  | cons g gs ih => simp [CleanTrees, ih]

theorem CleanTree.inv {g : HGroup} (h : CleanTree g) : CleanAttrs g.info.attrs ∧
    (∀ v ∈ g.info.vars, CleanAttrs v.attrs) ∧ ∀ s ∈ g.subs, CleanTree s := by
  cases g
  exact ⟨h.1, h.2.1, (cleanTrees_iff _).1 h.2.2⟩

theorem dimListPair_keys (env : Env) (v : HVar) : ∀ p ∈ dimListPair env v, p.1 = kDimList := by
  intro p hp
  unfold dimListPair at hp
  split at hp
  · simp at hp
  · split at hp
    · rw [List.mem_singleton.1 hp]
    · simp at hp

theorem parseTreeL_ok (heap : HeapFn) (os : List Obj) (h : ∀ o ∈ os, parseTree heap o = .ok ()) :
    parseTreeL heap os = .ok () := by
  induction os with
  | nil => rfl
  | cons o os ih =>
    rw [parseTreeL, h o (by simp)]
    exact ih (fun x hx => h x (by simp [hx]))

theorem parseTree_one (heap : HeapFn) (o : Obj) (ps : List (Bytes × GoVal))
    (h : All2 (AttrHolds heap) o.info.attrs ps) (hf : ∃ f, attrFill o.info = .ok f)
    (hr : kRefList ∉ ps.map (·.1)) (hc : ∀ p ∈ ps, Common p.2) (hk : ∀ k ∈ o.kids, parseTree heap k = .ok ()) :
    parseTree heap o = .ok () := by
  obtain ⟨i, kids⟩ := o
  obtain ⟨qs, h1, h2, h3⟩ := parseAttrs_ok heap i i.attrs ps h hf hc
  rw [parseTree, h1]
  have : (qs.any fun p => p.1.name == kRefList) = false := by
    rw [List.any_eq_false]
    intro q hq he
    obtain ⟨p, hp, hh⟩ := h2.left hq
    apply hr
    rw [List.mem_map]
    exact ⟨p, hp, by rw [← hh.name]; simpa using he⟩
  simp only [this, Bool.false_eq_true, ↓reduceIte]
  exact parseTreeL_ok heap kids hk

theorem parseTree_ok {heap : HeapFn} {file : Bytes} {env : Env} {g : HGroup} {o : Obj}
    (h : GroupObj heap file env g o) : CleanTree g → parseTree heap o = .ok () := by
  induction h with
  | mk i subs oi vs ss h1 h2 h3 h4 h5 ih =>
    intro hc
    obtain ⟨c1, c2, c3⟩ := hc.inv
    refine parseTree_one heap _ _ h1.attrs h1.fill c1.1 c1.2 ?_
    intro k hk
    simp only [Obj.kids, List.mem_append] at hk
    rcases hk with hk | hk
    · obtain ⟨v, hv, hva⟩ := h2.left hk
      refine parseTree_one heap k _ hva.obj.attrs hva.obj.fill ?_ ?_ ?_
      · rw [fullAttrs, List.map_append, List.mem_append, not_or]
        refine ⟨(c2 v hv).1, ?_⟩
        intro hm
        obtain ⟨p, hp, he⟩ := List.mem_map.1 hm
        rw [dimListPair_keys env v p hp] at he
        exact absurd he (by decide)
      · exact common_fullAttrs (c2 v hv).2
      · rw [hva.obj.kids]
        simp
    · obtain ⟨n, hn, he⟩ := List.getElem_of_mem hk
      have hz : (k, subs[n]'(by omega)) ∈ ss.zip subs := by
        rw [List.mem_iff_getElem]
        refine ⟨n, by simp; omega, ?_⟩
        simp [he]
      exact ih _ hz (c3 _ (List.getElem_mem _))

/-! ### Values -/

theorem objData_ok (s : Src) (v : HVar) (full : List (Bytes × GoVal)) (o : Obj)
    (h : VarObj (heapLookup s.file) s.file v full o) (hc : Common v.val) (st : VSt)
    (hst : st = ⟨none, o.info.blocks.map Block.toD⟩) :
    objData s o st = .ok (v.val, o.info.blocks.map Block.toD) := by
  obtain ⟨dt, pat, data, h1, h2, h3, h4, -⟩ := h.flat
  obtain ⟨r, h4⟩ := h4 hc
  subst hst
  have hrl := rowMajor_cellOf dt.len (getDimsLimited v.val v.dims.length) data h3
  have hb : dataBytes s.inflate s.fuel s.file o.info dt (getDimsLimited v.val v.dims.length)
      (o.info.blocks.map Block.toD) none = .ok (data, o.info.blocks.map Block.toD) := by
    rcases Nat.eq_zero_or_pos (prod (getDimsLimited v.val v.dims.length)) with hp | hp
    · rw [h2.empty hp (by simp)]
      rw [hp, Nat.zero_mul] at h3
      rw [List.length_eq_zero_iff.1 h3]
    · rw [h2.bytes hp (sl := none) trivial]
      simp only [rangeOf, Nat.sub_zero, List.drop_zero]
      rw [hrl, List.take_of_length_le (by omega)]
  simp only [objData, h1, h.dims, Option.getD_some, getData, hb, Res.bind_ok, sliceDims, onBytes, h4, Res.pure_eq]

end Verif.H5
