import Verif.Lemmas.CdfFile
import Verif.Lemmas.CdfParse
/-!
A whole CDF file: what the writer emits for a sound writer state, and what the reader makes of it.
-/
namespace Verif.Cdf

/-- Numbers up to `n` fit the fields of the version and `int64`. -/
structure SizeOK (version n : Nat) : Prop where
  num : NumOK version n
  i63 : n < 2 ^ 63

/-- Sound attribute maps. -/
def AttrsGood (version : Nat) (attrs : Attrs) : Prop :=
  ∀ om, attrs = some om → om.visibleKeys.Nodup ∧ ∀ k ∈ om.visibleKeys, ∃ v, om.get k = some v ∧
    NulFree k ∧ AttrVal v ∧ ((attrType v).isV5 = true → 5 ≤ version)

theorem AttrsGood.vals {version : Nat} {attrs : Attrs} (h : AttrsGood version attrs) :
    AttrsVals attrs := by
  intro om ho k hk
  obtain ⟨v, h1, _, h2, _⟩ := (h om ho).2 k hk
  exact ⟨v, h1, h2⟩

theorem attrCount_le {v : GoVal} (h : AttrVal v) : attrCount v ≤ (attrBytes v).length := by
  rw [attrBytes_length h]
  exact Nat.le_mul_of_pos_right _ (NcType.size_pos _)

theorem flatMap_length_ge {α : Type} (xs : List α) (f : α → Bytes)
    (h : ∀ x ∈ xs, 0 < (f x).length) : xs.length ≤ (xs.flatMap f).length := by
  induction xs with
  | nil => simp
  | cons x xs ih =>
    have h1 := h x (by simp)
    have h2 := ih (fun y hy => h y (by simp [hy]))
    simp only [List.flatMap_cons, List.length_append, List.length_cons]; omega

theorem encEntry_length (version : Nat) (k : Bytes) (v : GoVal) :
    k.length + 4 + (attrBytes v).length ≤ (encEntry version k v).length := by
  simp only [encEntry, encAttr, encName, List.length_append, beEnc_length]; omega

theorem AttrsGood.ok {version N : Nat} {attrs : Attrs} (h : AttrsGood version attrs)
    (hN : SizeOK version N) (hl : (encAttrs version attrs).length ≤ N) : AttrsOK version attrs := by
  intro om ho
  subst ho
  obtain ⟨h1, h2⟩ := h om rfl
  unfold encAttrs at hl
  simp only at hl
  by_cases hz : om.visibleKeys.length = 0
  · have hz' : om.visibleKeys = [] := List.length_eq_zero_iff.mp hz
    refine ⟨h1, by rw [hz]; exact NumOK_zero _, ?_⟩
    intro k hk
    rw [hz'] at hk; simp at hk
  · rw [if_neg hz] at hl
    simp only [List.length_append] at hl
    have hc := flatMap_length_ge (entries om) (fun kv => encEntry version kv.1 kv.2) (by
      intro x _
      have := encEntry_length version x.1 x.2
      omega)
    have he : (entries om).length = om.visibleKeys.length := by simp [entries]
    refine ⟨h1, hN.num.mono (by omega), ?_⟩
    intro k hk
    obtain ⟨v, hv, hn, ha, h5⟩ := h2 k hk
    have hmem : (k, v) ∈ entries om := by
      simp only [entries, List.mem_map]
      exact ⟨k, hk, by rw [hv]; rfl⟩
    have hle := mem_flatMap_length (fun kv : Bytes × GoVal => encEntry version kv.1 kv.2) hmem
    have hel := encEntry_length version k v
    have hac := attrCount_le ha
    simp only at hle
    have := hN.i63
    exact ⟨v, hv, ⟨hn, hN.num.mono (by omega), by omega, ha, hN.num.mono (by omega), h5⟩⟩

/-! ### Reading a variable entry -/

/-- What the reader remembers of a variable. -/
def varRec (dimIds : GoMap Nat) (x : SavedVar × Nat) : VarRec :=
  ⟨x.1.name, idsOf dimIds x.1, readBack x.1.attrs, x.1.ty.code, w64 (sizeOf' x.1), x.2⟩

/-- What the reader needs of a variable entry. -/
structure EntryReadable (version : Nat) (dims : List Dim) (dimIds : GoMap Nat)
    (x : SavedVar × Nat) : Prop where
  nul : NulFree x.1.name
  name : NumOK version x.1.name.length
  name63 : x.1.name.length < 2 ^ 63
  rank : (idsOf dimIds x.1).length ≤ 1024
  ids : ∀ id ∈ idsOf dimIds x.1, ∃ d, dims[id]? = some d ∧ 0 < d.length
  idnum : ∀ id ∈ idsOf dimIds x.1, NumOK version id
  attrs : AttrsOK version x.1.attrs
  size : NumOK version (sizeOf' x.1)
  off : x.2 < 2 ^ 64

theorem NumOK_small {version n : Nat} (h : n < 2 ^ 31) : NumOK version n := by
  unfold NumOK; split <;> omega

theorem hasUnlimited_false {dims : List Dim} {ids : List Nat}
    (h : ∀ id ∈ ids, ∃ d, dims[id]? = some d ∧ 0 < d.length) : hasUnlimited dims ids = .ok false := by
  cases ids with
  | nil => rfl
  | cons id ids =>
    obtain ⟨d, hd, hp⟩ := h id (by simp)
    have : (d.length == 0) = false := by simp; omega
    simp [hasUnlimited, hd, this]

theorem reads_getVar {ma version : Nat} (hv : version = 2 ∨ version = 5) {dims : List Dim}
    {dimIds : GoMap Nat} {x : SavedVar × Nat} (h : EntryReadable version dims dimIds x)
    (hma : (encVar version x.1 (idsOf dimIds x.1) (sizeOf' x.1) x.2).length ≤ ma) :
    Reads (getVar ma version dims) (encVar version x.1 (idsOf dimIds x.1) (sizeOf' x.1) x.2)
      (varRec dimIds x, 0) := by
  simp only [encVar, List.length_append] at hma
  unfold getVar encVar
  refine Reads.bind (reads_readName h.name h.name63 (by omega) h.nul) ?_
  refine Reads.bind (reads_readNumber (NumOK_small (by have := h.rank; omega))) ?_
  refine Reads.bind_nil (reads_assert (by simpa using h.rank)) ?_
  have hr := reads_repeat (p := readNumber version)
    (encs := (idsOf dimIds x.1).map (fun n => (encNum version n, n))) (by
      intro y hy
      obtain ⟨n, hn, rfl⟩ := List.mem_map.mp hy
      exact reads_readNumber (h.idnum n hn))
  simp only [List.length_map, List.flatMap_map, List.map_map] at hr
  have e1 : (idsOf dimIds x.1).map ((fun x => x.2) ∘ fun n => (encNum version n, n))
      = idsOf dimIds x.1 := by
    simp [Function.comp_def]
  rw [e1] at hr
  refine Reads.bind hr ?_
  refine Reads.bind (reads_getAttrList h.attrs (by omega)) ?_
  refine Reads.bind (reads_read32 x.1.ty.code_lt) ?_
  refine Reads.bind (reads_readNumber h.size) ?_
  have hu : usedSize dims (idsOf dimIds x.1) x.1.ty.code (sizeOf' x.1) = .ok (sizeOf' x.1, 0) := by
    unfold usedSize
    rw [hasUnlimited_false h.ids]
    rfl
  refine Reads.bind_nil (reads_lift hu) ?_
  have ho : readOffset version = read64 := by
    rcases hv with rfl | rfl <;> rfl
  simp only [ho]
  exact Reads.bind_pure (f := fun off => ((⟨x.1.name, idsOf dimIds x.1, readBack x.1.attrs,
    x.1.ty.code, w64 (sizeOf' x.1), off⟩ : VarRec), 0)) (reads_read64 h.off)

/-! ### Reading all variables -/

/-- The map of variables after reading them. -/
def addAll (om : OMap VarRec) (vs : List VarRec) : OMap VarRec :=
  vs.foldl (fun om v => om.add v.name v) om

theorem omap_add_plain {α : Type} (om : OMap α) (k : Bytes) (v : α) (h : om.hidden = []) :
    om.add k v = ⟨om.keys ++ [k], om.values.set k v, om.visible ++ [k], []⟩ := by
  simp [OMap.add, h]

theorem addAll_visible (om : OMap VarRec) (vs : List VarRec) (h : om.hidden = []) :
    (addAll om vs).visible = om.visible ++ vs.map (·.name) ∧ (addAll om vs).hidden = [] := by
  induction vs generalizing om with
  | nil => simp [addAll, h]
  | cons v vs ih =>
    have := ih (om.add v.name v) (by rw [omap_add_plain _ _ _ h])
    simp only [addAll, List.foldl_cons] at this ⊢
    rw [this.1, this.2, omap_add_plain _ _ _ h]
    simp

theorem addAll_get_other (om : OMap VarRec) (vs : List VarRec) (k : Bytes)
    (h : k ∉ vs.map (·.name)) : (addAll om vs).get k = om.get k := by
  induction vs generalizing om with
  | nil => rfl
  | cons v vs ih =>
    simp only [List.map_cons, List.mem_cons, not_or] at h
    simp only [addAll, List.foldl_cons]
    have := ih (om.add v.name v) h.2
    simp only [addAll] at this
    rw [this]
    simp only [OMap.get, OMap.add]
    split <;> simp [GoMap.get_set, h.1]

theorem addAll_get (om : OMap VarRec) (vs : List VarRec) (hn : (vs.map (·.name)).Nodup) :
    ∀ v ∈ vs, (addAll om vs).get v.name = some v := by
  induction vs generalizing om with
  | nil => intro v hv; simp at hv
  | cons w vs ih =>
    intro v hv
    simp only [List.map_cons, List.nodup_cons] at hn
    rcases List.mem_cons.mp hv with rfl | hv
    · simp only [addAll, List.foldl_cons]
      have := addAll_get_other (om.add v.name v) vs v.name hn.1
      simp only [addAll] at this
      rw [this]
      simp only [OMap.get, OMap.add]
      split <;> simp [GoMap.get_set]
    · exact ih _ hn.2 v hv

theorem reads_readVars {ma version : Nat} (hv : version = 2 ∨ version = 5) {dims : List Dim}
    {dimIds : GoMap Nat} (l : List (SavedVar × Nat)) (om : OMap VarRec)
    (h : ∀ x ∈ l, EntryReadable version dims dimIds x)
    (hma : (encVars version dimIds l).length ≤ ma)
    (hn : (l.map (fun x => x.1.name)).Nodup) (hd : ∀ x ∈ l, om.get x.1.name = none) :
    Reads (readVars ma version dims l.length ⟨om, 0, []⟩) (encVars version dimIds l)
      ⟨addAll om (l.map (varRec dimIds)), 0, []⟩ := by
  induction l generalizing om with
  | nil => exact Reads.pure _
  | cons x l ih =>
    have hx := h x (by simp)
    simp only [encVars, List.flatMap_cons, List.length_append] at hma ⊢
    simp only [List.length_cons, readVars]
    refine Reads.bind (reads_getVar hv hx (by omega)) ?_
    simp only
    have hnone : om.get (varRec dimIds x).name = none := hd x (by simp)
    rw [hnone]
    simp only [Option.isSome_none, Bool.false_eq_true, if_false]
    have hu : hasUnlimited dims (varRec dimIds x).dimids = .ok false := hasUnlimited_false hx.ids
    refine Reads.bind_nil (reads_lift hu) ?_
    simp only [Bool.false_eq_true, if_false]
    simp only [List.map_cons, List.nodup_cons] at hn
    have := ih (om.add (varRec dimIds x).name (varRec dimIds x)) (fun y hy => h y (by simp [hy]))
      (by simp only [encVars]; omega) hn.2 (by
        intro y hy
        have h1 := hd y (by simp [hy])
        have h2 : y.1.name ≠ x.1.name := by
          intro e
          exact hn.1 (by rw [← e]; exact List.mem_map_of_mem (f := fun x => x.1.name) hy)
        simp only [OMap.get, OMap.add] at h1 ⊢
        split <;> simp [GoMap.get_set, varRec, h2, h1])
    exact this

end Verif.Cdf
