import Verif.Props.CdfRound
/-!
C05 and C06: dimension names, and calls that fail.
-/
namespace Verif.Cdf

/-! ### C05 -/

theorem useDim_gen (cw : Writer) (n : Bytes) (len : Nat) :
    (∀ m L, cw.dimLengths.get m = some L → (cw.useDim n len).1.dimLengths.get m = some L) ∧
    (cw.useDim n len).1.vars = cw.vars ∧ (cw.useDim n len).1.globalAttrs = cw.globalAttrs ∧
    (cw.useDim n len).2 ≠ .panic ∧
    ((cw.useDim n len).2 = .ok () → (cw.useDim n len).1.dimLengths.get n = some len) := by
  unfold Writer.useDim
  split
  · rename_i L hL
    split
    · refine ⟨fun _ _ h => h, rfl, rfl, by simp, by simp⟩
    · rename_i h
      have : len = L := by omega
      refine ⟨fun _ _ h => h, rfl, rfl, by simp, fun _ => by rw [this]; exact hL⟩
  · rename_i hnone
    refine ⟨?_, rfl, rfl, by simp, fun _ => by simp [GoMap.get_set]⟩
    intro m L hm
    simp only [GoMap.get_set]
    rw [if_neg]
    · exact hm
    · rintro rfl; rw [hnone] at hm; cases hm

theorem addDims_gen {name : Bytes} {ty : NcType} (lens : List Nat) :
    ∀ (i : Nat) (cw : Writer) (dims : List Bytes), i ≤ dims.length →
    let r := Writer.addDims name ty lens i cw dims
    (∀ m L, cw.dimLengths.get m = some L → r.1.dimLengths.get m = some L) ∧
    r.1.vars = cw.vars ∧ r.1.globalAttrs = cw.globalAttrs ∧ r.2 ≠ .panic ∧
    ∀ dims', r.2 = .ok dims' → (∃ extra, dims' = dims ++ extra) ∧
      ∀ j (h1 : j < lens.length), ∃ n, dims'[i + j]? = some n ∧
        r.1.dimLengths.get n = some lens[j] := by
  induction lens with
  | nil =>
    intro i cw dims _
    simp only [Writer.addDims]
    refine ⟨fun _ _ h => h, trivial, trivial, by simp, ?_⟩
    intro dims' h
    cases h
    exact ⟨⟨[], by simp⟩, fun j h1 => by simp at h1⟩
  | cons len lens ih =>
    intro i cw dims hi
    simp only
    rw [Writer.addDims]
    obtain ⟨dims1, hdims1, hi1, e1, he1⟩ : ∃ dims1,
        (if dims.getD i [] = [] then dims ++ [genDimName cw ty name lens.isEmpty] else dims) = dims1
        ∧ i < dims1.length ∧ ∃ e, dims1 = dims ++ e := by
      refine ⟨_, rfl, ?_⟩
      split
      · exact ⟨by simp; omega, _, rfl⟩
      · rename_i hne
        refine ⟨?_, [], by simp⟩
        apply Nat.lt_of_not_le
        intro hle
        apply hne
        simp [List.getD, List.getElem?_eq_none hle]
    simp only [hdims1]
    rw [List.getElem?_eq_getElem hi1]
    simp only
    obtain ⟨g1, g2, g3, g4, g5⟩ := useDim_gen cw dims1[i] len
    generalize hu : cw.useDim dims1[i] len = ru at *
    obtain ⟨cw1, r1⟩ := ru
    cases r1 with
    | panic => exact absurd rfl g4
    | err e => exact ⟨g1, g2, g3, by simp, by intro dims' h; cases h⟩
    | ok _ =>
      obtain ⟨k1, k2, k3, k4, k5⟩ := ih (i + 1) cw1 dims1 (by omega)
      refine ⟨fun m L hm => k1 m L (g1 m L hm), by rw [k2]; exact g2, by rw [k3]; exact g3, k4, ?_⟩
      intro dims' hd
      obtain ⟨⟨e2, he2⟩, k7⟩ := k5 dims' hd
      refine ⟨⟨e1 ++ e2, by rw [he2, he1, List.append_assoc]⟩, ?_⟩
      intro j hj
      cases j with
      | zero =>
        refine ⟨dims1[i], ?_, k1 _ _ (g5 rfl)⟩
        rw [he2, Nat.add_zero, List.getElem?_append_left hi1, List.getElem?_eq_getElem hi1]
      | succ j =>
        have := k7 j (by simpa using hj)
        rw [show i + (j + 1) = i + 1 + j by omega]
        exact this

/-- Every call keeps the registered dimensions, and a successful `AddVar` registers its own. -/
theorem addVar_gen (u : UniTables) (cw : Writer) (name : Bytes) (vr : Variable) :
    let r := cw.addVar u name vr
    (∀ m L, cw.dimLengths.get m = some L → r.1.dimLengths.get m = some L) ∧
    r.1.globalAttrs = cw.globalAttrs ∧ (∀ e, r.2 = .err e → r.1.vars = cw.vars) ∧
    ∀ shape w, Supported (!vr.dimensions.isEmpty) vr.values shape w → r.2 ≠ .panic ∧
      (r.2 = .ok () → ∀ i (h1 : i < shape.length) (h2 : i < vr.dimensions.length),
        r.1.dimLengths.get vr.dimensions[i] = some shape[i]) := by
  simp only
  unfold Writer.addVar
  split
  · exact ⟨fun _ _ h => h, rfl, fun _ _ => rfl, by simp⟩
  split
  · exact ⟨fun _ _ h => h, rfl, fun _ _ => rfl, by simp⟩
  have hck : (checkV5Attributes cw.version vr.attributes).2 ≠ .panic := by
    cases vr.attributes with
    | none => simp [checkV5Attributes]
    | some om =>
      simp only [checkV5Attributes]
      generalize om.visibleKeys = ks
      induction ks with
      | nil => simp [checkV5Loop]
      | cons k ks ih =>
        simp only [checkV5Loop]
        split
        · simp
        · exact ih
        · simp
  split
  · exact ⟨fun _ _ h => h, rfl, fun _ _ => rfl, by simp⟩
  · rename_i hp
    rw [hp] at hck
    exact absurd rfl hck
  rename_i version _
  simp only
  split
  · refine ⟨fun _ _ h => h, rfl, fun _ _ => rfl, ?_⟩
    intro shape w hs
    simp
  · rename_i hgd
    refine ⟨fun _ _ h => h, rfl, by simp, ?_⟩
    intro shape w hs
    obtain ⟨ty, h1, _⟩ := supported_ok (name := name) (dims' := []) (attrs := none) hs
    rw [hgd] at h1; cases h1
  · rename_i lens ty hgd
    obtain ⟨k1, k2, k3, k4, k5⟩ := addDims_gen (name := name) (ty := ty) lens 0
      { cw with version := if ty.isV5 then 5 else version } vr.dimensions (Nat.zero_le _)
    generalize Writer.addDims name ty lens 0
      { cw with version := if ty.isV5 then 5 else version } vr.dimensions = ra at *
    obtain ⟨cw1, r1⟩ := ra
    cases r1 with
    | panic => exact absurd rfl k4
    | err e => exact ⟨k1, k3, fun _ _ => k2, by simp⟩
    | ok dims' =>
      refine ⟨k1, k3, by simp, ?_⟩
      intro shape w hs
      refine ⟨by simp, ?_⟩
      intro _ i h1 h2
      obtain ⟨ty', hs1, _⟩ := supported_ok (name := name) (dims' := []) (attrs := none) hs
      rw [hgd] at hs1
      cases hs1
      obtain ⟨⟨extra, he⟩, hreg⟩ := k5 dims' rfl
      obtain ⟨n, hn1, hn2⟩ := hreg i h1
      rw [Nat.zero_add, he, List.getElem?_append_left h2, List.getElem?_eq_getElem h2] at hn1
      cases hn1
      exact hn2

theorem run_gen {u : UniTables} (cs : List Call) : ∀ {cw cw' : Writer},
    runAll u cs cw = some cw' →
    (∀ m L, cw.dimLengths.get m = some L → cw'.dimLengths.get m = some L) ∧
    ∀ name vr, Call.addVar name vr ∈ cs → ∀ shape w,
      Supported (!vr.dimensions.isEmpty) vr.values shape w →
      ∀ i (h1 : i < shape.length) (h2 : i < vr.dimensions.length),
        cw'.dimLengths.get vr.dimensions[i] = some shape[i] := by
  induction cs with
  | nil =>
    intro cw cw' h
    simp only [runAll, Option.some.injEq] at h
    subst h
    exact ⟨fun _ _ h => h, by simp⟩
  | cons c cs ih =>
    intro cw cw' h
    rw [runAll] at h
    split at h
    · rename_i cw1 hs
      obtain ⟨i1, i2⟩ := ih h
      cases c with
      | addAttributes attrs =>
        have hd : cw1.dimLengths = cw.dimLengths := by
          simp only [step, Writer.addAttributes] at hs
          split at hs
          · cases hs
          · cases hs; rfl
        refine ⟨fun m L hm => i1 m L (by rw [hd]; exact hm), ?_⟩
        intro name vr hm
        exact i2 name vr (by simpa using hm)
      | addVar n' vr' =>
        obtain ⟨g1, _, _, g2⟩ := addVar_gen u cw n' vr'
        simp only [step] at hs
        rw [hs] at g1 g2
        refine ⟨fun m L hm => i1 m L (g1 m L hm), ?_⟩
        intro name vr hm shape w hsup i h1 h2
        rcases List.mem_cons.mp hm with hm | hm
        · cases hm
          exact i1 _ _ ((g2 shape w hsup).2 rfl i h1 h2)
        · exact i2 name vr hm shape w hsup i h1 h2
    · cases h

/-- **C05 (one length per name).** After any sequence of successful calls, a dimension name given
for two variables, or twice for one, stands for the same length in both. -/
theorem C05_one_length (u : UniTables) (calls : List Call) (cw : Writer)
    (h : runAll u calls Writer.init = some cw)
    (n1 n2 : Bytes) (v1 v2 : Variable) (h1 : Call.addVar n1 v1 ∈ calls)
    (h2 : Call.addVar n2 v2 ∈ calls) (s1 s2 : List Nat) (w1 w2 : GoVal)
    (hs1 : Supported (!v1.dimensions.isEmpty) v1.values s1 w1)
    (hs2 : Supported (!v2.dimensions.isEmpty) v2.values s2 w2)
    (i j : Nat) (hi : i < s1.length) (hj : j < s2.length) (hi' : i < v1.dimensions.length)
    (hj' : j < v2.dimensions.length) (he : v1.dimensions[i] = v2.dimensions[j]) :
    s1[i] = s2[j] := by
  have g := (run_gen calls h).2
  have a := g n1 v1 h1 s1 w1 hs1 i hi hi'
  have b := g n2 v2 h2 s2 w2 hs2 j hj hj'
  rw [he, b] at a
  exact (Option.some.inj a).symm

/-- **C05 (mismatch refused).** After any sequence of successful calls, `AddVar` returns an error
when it is given the name of a dimension of an earlier variable with another length. -/
theorem C05_mismatch_refused (u : UniTables) (calls : List Call) (cw : Writer)
    (h : runAll u calls Writer.init = some cw)
    (n1 n2 : Bytes) (v1 v2 : Variable) (h1 : Call.addVar n1 v1 ∈ calls)
    (s1 s2 : List Nat) (w1 w2 : GoVal)
    (hs1 : Supported (!v1.dimensions.isEmpty) v1.values s1 w1)
    (hs2 : Supported (!v2.dimensions.isEmpty) v2.values s2 w2)
    (i j : Nat) (hi : i < s1.length) (hj : j < s2.length) (hi' : i < v1.dimensions.length)
    (hj' : j < v2.dimensions.length) (he : v1.dimensions[i] = v2.dimensions[j])
    (hne : s1[i] ≠ s2[j]) : ∃ e, (cw.addVar u n2 v2).2 = .err e := by
  have a := (run_gen calls h).2 n1 v1 h1 s1 w1 hs1 i hi hi'
  obtain ⟨g1, _, _, g2⟩ := addVar_gen u cw n2 v2
  obtain ⟨g3, g4⟩ := g2 s2 w2 hs2
  cases hr : (cw.addVar u n2 v2).2 with
  | err e => exact ⟨e, rfl⟩
  | panic => exact absurd hr g3
  | ok x =>
    have b := g4 hr j hj hj'
    have a' := g1 _ _ a
    rw [he, b] at a'
    exact absurd (Option.some.inj a').symm hne

/-! ### C06 -/

/-- **C06 (AddAttributes).** A refused `AddAttributes` leaves the writer as it was. -/
theorem C06_addAttributes (u : UniTables) (cw : Writer) (attrs : Attrs) (e : Err)
    (h : (cw.addAttributes u attrs).2 = .err e) : (cw.addAttributes u attrs).1 = cw := by
  unfold Writer.addAttributes at h ⊢
  split
  · rfl
  · rename_i hn; rw [if_neg hn] at h; cases h

theorem getDimLengths_err {b : Bool} (v : GoVal) : ∀ {acc : List Nat} {e : Err},
    getDimLengths b v acc = .err e → e = .emptySlice ∨ e = .unknownType := by
  induction v using GoVal.rec (motive_2 := fun xs => ∀ x ∈ xs, ∀ {acc : List Nat} {e : Err},
    getDimLengths b x acc = .err e → e = .emptySlice ∨ e = .unknownType) with
  | num k bits => intro acc e h; simp [getDimLengths] at h
  | str s =>
    intro acc e h
    rw [getDimLengths] at h
    split at h <;> cases h
  | other l =>
    intro acc e h
    rw [getDimLengths] at h
    split at h
    · cases h; simp
    · cases h
  | user u => intro acc e h; simp [getDimLengths] at h; simp [← h]
  | slice t xs ih =>
    intro acc e h
    rw [getDimLengths.eq_def] at h
    simp only at h
    split at h
    · split at h
      · cases h; simp
      · cases h
    · split at h
      · split at h
        · cases h
        · cases h; simp
      · exact ih _ (by simp) h
  | nil => rename_i hx _ _ _; simp at hx
  | cons x xs h1 h2 =>
    rename_i y hy _ _ h
    rcases List.mem_cons.mp hy with rfl | hy
    · exact h1 h
    · exact h2 y hy h

theorem addDims_err {name : Bytes} {ty : NcType} (lens : List Nat) :
    ∀ (i : Nat) (cw : Writer) (dims : List Bytes) (e : Err),
    (Writer.addDims name ty lens i cw dims).2 = .err e → e = .dimensionSize := by
  induction lens with
  | nil => intro i cw dims e h; simp [Writer.addDims] at h
  | cons len lens ih =>
    intro i cw dims e h
    rw [Writer.addDims] at h
    split at h
    · cases h
    · split at h
      · exact ih _ _ _ _ h
      · rename_i e' hu
        simp only [Res.err.injEq] at h
        subst h
        unfold Writer.useDim at hu
        split at hu
        · split at hu
          · cases hu; rfl
          · cases hu
        · cases hu
      · cases h

theorem checkV5_err {version v' : Nat} {attrs : Attrs} {e : Err}
    (h : checkV5Attributes version attrs = (v', .err e)) : v' = version := by
  cases attrs with
  | none => simp [checkV5Attributes] at h
  | some om =>
    simp only [checkV5Attributes] at h
    generalize om.visibleKeys = ks at h
    induction ks with
    | nil => simp [checkV5Loop] at h
    | cons k ks ih =>
      simp only [checkV5Loop] at h
      split at h
      · cases h
      · exact ih h
      · cases h; rfl

/-- **C06 (AddVar).** An `AddVar` that is refused never adds a variable nor touches the global
attributes; if it is refused because of a name or of an attribute, the writer is as it was.

Partial: a dimension conflict or an unsupported value can leave dimensions or the version behind
(`C06_negation`). -/
theorem C06_addVar_partial (u : UniTables) (cw : Writer) (name : Bytes) (vr : Variable) (e : Err)
    (h : (cw.addVar u name vr).2 = .err e) :
    (cw.addVar u name vr).1.vars = cw.vars ∧
    (cw.addVar u name vr).1.globalAttrs = cw.globalAttrs ∧
    (e = .invalidName ∨ e = .attribute → (cw.addVar u name vr).1 = cw) := by
  obtain ⟨_, h2, h3, _⟩ := addVar_gen u cw name vr
  refine ⟨h3 e h, h2, ?_⟩
  intro he
  revert h
  unfold Writer.addVar
  split
  · intro _; rfl
  split
  · intro _; rfl
  split
  · rename_i hc; intro _; simp only; rw [checkV5_err hc]
  · intro h; cases h
  rename_i version _
  simp only
  split
  · rename_i hg
    intro h
    cases h
    rcases getDimLengths_err _ hg with h1 | h1 <;> subst h1 <;> simp at he
  · intro h; cases h
  · rename_i lens ty hgd
    have hd := addDims_err (name := name) (ty := ty) lens 0
      { cw with version := if ty.isV5 then 5 else version } vr.dimensions
    split
    · rename_i hr
      intro h
      rw [hr] at hd
      simp only [Res.err.injEq] at h
      subst h
      have := hd _ rfl
      subst this
      simp at he
    · intro h; cases h
    · intro h; cases h

end Verif.Cdf
