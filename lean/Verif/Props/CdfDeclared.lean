import Verif.Spec.CdfDeclared
import Verif.Lemmas.CdfBox
import Verif.Lemmas.CdfType
import Verif.Props.TypeNames
/-!
C72: values read from any CDF file have the shape and the type that the file declares.
-/
namespace Verif.Cdf

theorem decodeElems_numVal (k : Kind) : ∀ (n : Nat) (b : Bytes), ∀ x ∈ decodeElems k n b, NumVal k x
  | 0, _, x, h => by simp [decodeElems] at h
  | n + 1, b, x, h => by
    simp only [decodeElems, List.mem_cons] at h
    rcases h with h | h
    · subst h
      refine ⟨_, rfl, Nat.lt_of_lt_of_le (beDec_lt _) (Nat.pow_le_pow_right (by omega) ?_)⟩
      rw [List.length_take]
      omega
    · exact decodeElems_numVal k n _ x h

/-- Elements put into nested slices. -/
theorem nestV_declared (ty : NcType) (dims : List Nat) (n : Nat) (b : Bytes) (h : prod dims ≤ n) :
    DeclaredC ty dims (nestV ty dims (decodeElems ty.readKind n b)) := by
  unfold DeclaredC
  cases hk : ty.kind with
  | some k =>
    have : ty.readKind = k := by simp [NcType.readKind, hk]
    rw [this]
    exact nestV_rect_num hk dims _ (by rw [decodeElems_length]; exact h) (decodeElems_numVal k n b)
  | none =>
    have ht : ty = .char := by revert hk; cases ty <;> simp [NcType.kind]
    subst ht
    constructor
    · rintro rfl
      refine ⟨_, rfl, ?_⟩
      simp only [stringOfByte]
      split <;> simp
    · rintro ds L rfl
      exact (nestV_char_rect ds L _ (by rw [decodeElems_length]; exact h)).1

theorem varDims_lengths {h : Hdr} : ∀ {ids : List Nat} {i : Nat} {r : List (Nat × Bytes)} {u : Bool},
    varDims h ids i = .ok (r, u) → r.map (·.1) = ids.map h.lengthOf ∧
      ids.map (fun id => (h.dims[id]?).map (·.name)) = r.map (fun x => some x.2)
  | [], i, r, u, hv => by cases hv; exact ⟨rfl, rfl⟩
  | id :: ids, i, r, u, hv => by
    unfold varDims at hv
    cases hd : h.dims[id]? with
    | none => simp [hd] at hv
    | some d =>
      simp only [hd] at hv
      split at hv
      · cases hv
      · rw [Res.bind_eq_ok] at hv
        obtain ⟨⟨r', u'⟩, h1, h2⟩ := hv
        cases h2
        obtain ⟨h3, h4⟩ := varDims_lengths h1
        refine ⟨?_, ?_⟩
        · simp only [List.map_cons, h3, Hdr.lengthOf, hd]
        · simp only [List.map_cons, hd, h4, Option.map_some]

/-- What the getter of a variable says about it. -/
theorem getVarCommon_declared {h : Hdr} {name : Bytes} {g : Getter} (hg : getVarCommon h name = .ok g) :
    h.vars.get name = some g.vr ∧ NcType.ofCode g.vr.vType = some g.ty ∧
      g.dimLengths = g.vr.dimids.map h.lengthOf ∧
      g.vr.dimids.map (fun id => (h.dims[id]?).map (·.name)) = g.dimNames.map some ∧
      (g.dimLengths = [] → g.length = 1 ∧ g.chunkSize = 1) := by
  unfold getVarCommon at hg
  cases hv : h.vars.get name with
  | none => simp [hv] at hg
  | some v =>
    simp only [hv] at hg
    rw [Res.bind_eq_ok] at hg
    obtain ⟨⟨r, u⟩, h1, h2⟩ := hg
    simp only at h2
    obtain ⟨h3, h4⟩ := varDims_lengths h1
    cases ht : NcType.ofCode v.vType with
    | none => simp [ht] at h2
    | some ty =>
      simp only [ht, Res.pure_eq, Res.ok.injEq] at h2
      subst h2
      refine ⟨rfl, ht, h3, by rw [h4, List.map_map]; rfl, ?_⟩
      intro h0
      simp only at h0
      simp only [h0]
      exact ⟨trivial, rfl⟩

/-- The lengths of the rows from `b` to `e`; a scalar has none. -/
def rowsOf (dims : List Nat) (b e : Int) : List Nat :=
  match dims with
  | [] => []
  | _ :: ds => (e - b).toNat :: ds

theorem getSliceCap_declared {ma : Nat} {h : Hdr} {file : Bytes} {name : Bytes} {g : Getter} {b e : Int} {cv : CapVal}
    (hg : getVarCommon h name = .ok g) (hv : getSliceCap ma h file g b e = .ok cv) (hsz : prod g.dimLengths < 2 ^ 63)
    (hb : 0 ≤ b) (he : e ≤ g.length) (hc : g.ty = .char → 3 ≤ g.dimLengths.length → b < e) :
    DeclaredC g.ty (rowsOf g.dimLengths b e) cv.erase := by
  unfold getSliceCap at hv
  split at hv
  · cases hv
  rename_i hbe
  simp only at hv
  rw [Res.bind_eq_ok] at hv
  obtain ⟨bs, -, hv⟩ := hv
  cases hdl : g.dimLengths with
  | nil =>
    obtain ⟨h1, h2⟩ := (getVarCommon_declared hg).2.2.2.2 hdl
    have one : (w64 (1 * 1)).toNat = 1 := by rw [Int.mul_one, show (1 : Int) = ((1 : Nat) : Int) from rfl, w64_nat (by decide)]; rfl
    have hn : g.nChunks b e = 1 := by simp only [Getter.nChunks, hdl]
    simp only [hn, h2, Getter.sliceDims, hdl] at hv
    obtain ⟨cv', h3, h4⟩ := convertCap_exact g.ty [] (decodeElems g.ty.readKind (w64 (1 * 1)).toNat bs) (by simp)
      (by rw [decodeElems_length, one]; rfl) (by decide) (by simp)
    rw [h3] at hv
    cases hv
    rw [h4]
    exact nestV_declared g.ty [] _ bs (by rw [one]; decide)
  | cons D ds =>
    rw [hdl] at hsz hc
    obtain ⟨hpos, hcs, hcs0, hlen, -, -⟩ := getVarCommon_dims hg hdl hsz
    have hP := prod_pos hpos
    have hD63 : D < 2 ^ 63 := Nat.lt_of_le_of_lt (Nat.le_mul_of_pos_right _ hP) hsz
    obtain ⟨m, hm⟩ : ∃ m : Nat, e - b = m := ⟨(e - b).toNat, by omega⟩
    have hmD : m ≤ D := by omega
    have hmp : m * prod ds ≤ D * prod ds := Nat.mul_le_mul_right _ hmD
    have hszD : D * prod ds < 2 ^ 63 := hsz
    have hn : g.nChunks b e = (m : Int) := by
      simp only [Getter.nChunks, hdl]
      split
      · omega
      · rw [hm]; exact w64_nat (by omega)
    have hs : w64 ((m : Int) * g.chunkSize) = ((m * prod ds : Nat) : Int) := by
      by_cases hD : D = 0
      · have : m = 0 := by omega
        rw [this]; simp [w64_zero]
      · rw [hcs hD, ← Int.natCast_mul, w64_nat (by omega)]
    rw [hn, hs] at hv
    simp only [Getter.sliceDims, hdl, Int.toNat_natCast] at hv
    rw [toU64_nat (by omega)] at hv
    obtain ⟨cv', h3, h4⟩ := convertCap_exact g.ty (m :: ds) (decodeElems g.ty.readKind (m * prod ds) bs)
      (by simpa using hpos) (by rw [decodeElems_length]; rfl) (by show m * prod ds < _; omega) (by
        intro h0
        simp only [List.head?_cons, Option.some.injEq] at h0
        by_cases hr : 3 ≤ (D :: ds).length
        · exact .inr fun ht => by have := hc ht hr; omega
        · exact .inl (by simp only [List.length_cons] at hr ⊢; omega))
    rw [h3] at hv
    cases hv
    rw [h4]
    simp only [rowsOf, hm, Int.toNat_natCast]
    exact nestV_declared g.ty (m :: ds) _ bs (Nat.le_refl _)

/-- C72 for parts: what `GetSlice(b, e)` returns for rows that the variable has is an array with these
rows, of the declared type. Left out: variables that are declared to have 2⁶³ elements or more, and empty
parts of character arrays with three or more dimensions (`C23_negation_empty_char`). -/
theorem C72_slice {ma : Nat} {h : Hdr} {file : Bytes} {name : Bytes} {g : Getter} {b e : Int} {v : GoVal}
    (hg : getVarCommon h name = .ok g) (hsz : prod (g.vr.dimids.map h.lengthOf) < 2 ^ 63) (hb : 0 ≤ b) (he : e ≤ g.length)
    (hc : NcType.ofCode g.vr.vType = some .char → 3 ≤ g.vr.dimids.length → b < e)
    (hv : getSlice ma h file g b e = .ok v) :
    h.vars.get name = some g.vr ∧ ∃ ty, NcType.ofCode g.vr.vType = some ty ∧
      DeclaredC ty (rowsOf (g.vr.dimids.map h.lengthOf) b e) v := by
  obtain ⟨h1, h2, h3, h4, -⟩ := getVarCommon_declared hg
  refine ⟨h1, g.ty, h2, ?_⟩
  rw [getSlice] at hv
  rcases hcv : getSliceCap ma h file g b e with cv | _ | _
  · rw [hcv] at hv
    cases hv
    rw [← h3]
    refine getSliceCap_declared hg hcv (by rw [h3]; exact hsz) hb he ?_
    intro ht hr
    rw [h3, List.length_map] at hr
    exact hc (by rw [h2, ht]) hr
  · rw [hcv] at hv; cases hv
  · rw [hcv] at hv; cases hv

/-- C72. Whatever bytes a CDF file consists of: if it is opened and `GetVariable` returns a variable, its
values are an array of the declared type with the declared lengths (the record dimension is as long as
the file has records), and its dimensions are the declared ones. -/
theorem C72_variable {ma : Nat} {h : Hdr} {file : Bytes} {name : Bytes} {var : Variable} {vr : VarRec}
    (_ho : openCdf ma file = .ok h) (hvr : h.vars.get name = some vr) (hsz : prod (vr.dimids.map h.lengthOf) < 2 ^ 63)
    (hc : NcType.ofCode vr.vType = some .char → 3 ≤ vr.dimids.length → prod (vr.dimids.map h.lengthOf) ≠ 0)
    (hv : getVariable ma h file name = .ok var) :
    (∃ ty, NcType.ofCode vr.vType = some ty ∧ DeclaredC ty (vr.dimids.map h.lengthOf) var.values) ∧
      vr.dimids.map (fun id => (h.dims[id]?).map (·.name)) = var.dimensions.map some ∧ var.attributes = some vr.attrs := by
  unfold getVariable at hv
  rw [Res.bind_eq_ok] at hv
  obtain ⟨g, hg, hv⟩ := hv
  rw [Res.bind_eq_ok] at hv
  obtain ⟨v, hv1, hv⟩ := hv
  cases hv
  obtain ⟨h1, h2, h3, h4, h5⟩ := getVarCommon_declared hg
  rw [hvr] at h1
  cases h1
  refine ⟨⟨g.ty, h2, ?_⟩, h4, rfl⟩
  rcases hcv : getSliceCap ma h file g 0 g.length with cv | _ | _
  · rw [hcv] at hv1
    cases hv1
    rw [← h3] at hsz hc
    have hlen : g.dimLengths ≠ [] → ∃ D ds, g.dimLengths = D :: ds ∧ g.length = D := by
      intro hne
      obtain ⟨D, ds, hdl⟩ := List.exists_cons_of_ne_nil hne
      rw [hdl] at hsz
      exact ⟨D, ds, hdl, (getVarCommon_dims hg hdl hsz).2.2.2.1⟩
    have hr : rowsOf g.dimLengths 0 g.length = g.vr.dimids.map h.lengthOf := by
      rw [← h3]
      by_cases hne : g.dimLengths = []
      · rw [hne]; rfl
      · obtain ⟨D, ds, hdl, hl⟩ := hlen hne
        rw [hl, hdl]
        simp [rowsOf]
    rw [← hr]
    refine getSliceCap_declared hg hcv hsz (by omega) (by omega) ?_
    intro ht hr'
    obtain ⟨D, ds, hdl, hl⟩ := hlen (by intro h0; rw [h0] at hr'; simp at hr')
    have := hc (by rw [h2, ht]) (by rw [h3, List.length_map] at hr'; exact hr')
    rw [hdl] at this
    have h0 : D ≠ 0 := by
      rintro rfl
      exact this (by simp [prod])
    omega
  · rw [hcv] at hv1; cases hv1
  · rw [hcv] at hv1; cases hv1

-- a character array with two rows
example : ∃ h g v, openCdf 100 (file3 2 2 2 2 (ascii "abcdefgh")) = .ok h ∧ getVarCommon h (ascii "v") = .ok g ∧
    prod (g.vr.dimids.map h.lengthOf) = 8 ∧ NcType.ofCode g.vr.vType = some .char ∧ g.length = 2 ∧
    getSlice 100 h (file3 2 2 2 2 (ascii "abcdefgh")) g 0 2 = .ok v := by
  obtain ⟨h, g, h1, h2, h3⟩ := witness 100 (file3 2 2 2 2 (ascii "abcdefgh")) "v" (fun h g =>
    decide (prod (g.vr.dimids.map h.lengthOf) = 8 ∧ NcType.ofCode g.vr.vType = some .char ∧ g.length = 2 ∧
      getSlice 100 h (file3 2 2 2 2 (ascii "abcdefgh")) g 0 2 =
      .ok (.slice (.slice .str) [.slice .str [.str (ascii "ab"), .str (ascii "cd")],
        .slice .str [.str (ascii "ef"), .str (ascii "gh")]])))
    (by decide +kernel)
  have h3 := of_decide_eq_true h3
  exact ⟨h, g, _, h1, h2, h3.1, h3.2.1, h3.2.2.1, h3.2.2.2⟩

end Verif.Cdf
