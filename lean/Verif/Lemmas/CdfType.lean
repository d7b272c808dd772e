import Verif.Lemmas.CdfBox
import Verif.Lemmas.CdfSlice
/-!
The type of the values that the CDF reader returns.
-/
namespace Verif.Cdf

theorem valTy_eq (ty : NcType) (ds : List Nat) : valTy ty ds =
    match ty.kind with
    | none => tyNest .str ds.tail
    | some k => tyNest (.num k) ds := by
  induction ds with
  | nil => simp only [valTy]; cases ty.kind <;> rfl
  | cons d ds ih =>
    cases ds with
    | nil => simp only [valTy, rowTy]; cases ty.kind <;> rfl
    | cons d' ds => rw [valTy, ih]; cases ty.kind <;> rfl

theorem erase_ty_leaf (x : GoVal) : (CapVal.leaf x).erase.ty = x.ty := rfl

/-- The type of a converted value. -/
theorem convertCap_ty (ty : NcType) : ∀ (dims : List Nat) (data : List GoVal) (cv : CapVal),
    convertCap ty dims data = .ok cv → (∀ x ∈ data, x.ty = .num ty.readKind) →
    (ty.kind = none → 3 ≤ dims.length → (∀ d ∈ dims, 0 < d) ∧ prod dims ≤ data.length ∧
      prod dims < 2 ^ 63) →
    cv.erase.ty = valTy ty dims
  | [], data, cv, h, hx, _ => by
    cases data with
    | nil => simp [convertCap] at h
    | cons x xs =>
      simp only [convertCap] at h
      have hx0 := hx x (by simp)
      cases hk : ty.kind with
      | none => simp only [hk, Res.ok.injEq] at h; subst h; simp [CapVal.erase, GoVal.ty, valTy, hk]
      | some k =>
        simp only [hk, Res.ok.injEq] at h
        subst h
        simp [erase_ty_leaf, hx0, valTy, hk, NcType.readKind]
  | [d], data, cv, h, hx, _ => by
    simp only [convertCap] at h
    cases hk : ty.kind with
    | none => simp only [hk, Res.ok.injEq] at h; subst h; simp [CapVal.erase, GoVal.ty, valTy, rowTy, hk]
    | some k =>
      simp only [hk, Res.ok.injEq] at h
      subst h
      simp [CapVal.erase, GoVal.ty, valTy, rowTy, hk]
  | [d0, d1], data, cv, h, hx, _ => by
    simp only [convertCap] at h
    rw [Res.bind_eq_ok] at h
    obtain ⟨rows, _, h⟩ := h
    simp only [Res.pure_eq, Res.ok.injEq] at h
    subst h
    simp [CapVal.erase, GoVal.ty, valTy]
  | d0 :: d1 :: d2 :: ds, data, cv, h, hx, hc => by
    rw [convertCap] at h
    split at h
    · rename_i h0
      simp only [Res.ok.injEq] at h
      subst h
      cases hk : ty.kind with
      | none =>
        obtain ⟨hp, hl, _⟩ := hc hk (by simp)
        have := prod_pos hp
        omega
      | some k =>
        simp only [emptySlice, CapVal.erase, GoVal.ty, NcType.readKind, hk, Option.getD_some]
        rw [show ds.length + 3 - 1 = ds.length + 2 from rfl,
          nestTy_valTy hk (ds.length + 2) (d1 :: d2 :: ds) rfl (by omega)]
        rfl
    · split at h
      · cases h
      · rename_i h0 hd0
        rw [Res.bind_eq_ok] at h
        obtain ⟨vals, hs, h⟩ := h
        have hs' := seqRes_mem hs
        cases vals with
        | nil => simp at h
        | cons v0 vs =>
          simp only at h
          split at h
          · simp only [Res.pure_eq, Res.ok.injEq] at h
            subst h
            have hm := hs'.2 v0 (by simp)
            simp only [List.mem_map, List.mem_range] at hm
            obtain ⟨i, hi, hm⟩ := hm
            split at hm
            · cases hm
            · rename_i hoff
              have ih := convertCap_ty ty (d1 :: d2 :: ds) _ v0 hm
                (fun x hx' => hx x (List.mem_of_mem_drop hx')) (by
                  intro hk hl
                  obtain ⟨hp, hle, hlt⟩ := hc hk (by simp)
                  have hp0 := hp d0 (by simp)
                  have hpr : prod (d0 :: d1 :: d2 :: ds) = d0 * prod (d1 :: d2 :: ds) := rfl
                  have hle1 : prod (d1 :: d2 :: ds) ≤ d0 * prod (d1 :: d2 :: ds) :=
                    Nat.le_mul_of_pos_left _ hp0
                  refine ⟨fun d hd => hp d (by simp at hd ⊢; right; exact hd), ?_, by omega⟩
                  rw [List.length_drop, innerLength_eq _ (by omega)]
                  have : (i + 1) * prod (d1 :: d2 :: ds) ≤ d0 * prod (d1 :: d2 :: ds) :=
                    Nat.mul_le_mul_right _ hi
                  rw [Nat.add_mul] at this
                  omega)
              show GoTy.slice v0.erase.ty = _
              rw [ih]
              rfl
          · cases h

theorem decodeElems_ty (k : Kind) : ∀ (n : Nat) (b : Bytes), ∀ x ∈ decodeElems k n b, x.ty = .num k
  | 0, _, x, h => by simp [decodeElems] at h
  | n + 1, b, x, h => by
    simp only [decodeElems, List.mem_cons] at h
    rcases h with h | h
    · subst h; rfl
    · exact decodeElems_ty k n _ x h

theorem valTy_congr (ty : NcType) : ∀ (ds es : List Nat), ds.length = es.length →
    valTy ty ds = valTy ty es
  | [], [], _ => rfl
  | [_], [_], _ => rfl
  | _ :: d :: ds, _ :: e :: es, h => by
    simp only [valTy]
    rw [valTy_congr ty (d :: ds) (e :: es) (by simpa using h)]

theorem getSlice_ty {ma : Nat} {h : Hdr} {file : Bytes} {name : Bytes} {g : Getter}
    {b e : Int} {v : GoVal} (hg : getVarCommon h name = .ok g)
    (hv : getSlice ma h file g b e = .ok v)
    (hc : g.ty = .char → 3 ≤ g.dimLengths.length →
      prod g.dimLengths < 2 ^ 63 ∧ 0 ≤ b ∧ b < e ∧ e ≤ g.length) :
    v.ty = valTy g.ty g.dimLengths := by
  unfold getSlice at hv
  obtain ⟨cv, hcv, rfl⟩ : ∃ cv, getSliceCap ma h file g b e = .ok cv ∧ cv.erase = v := by
    revert hv
    cases getSliceCap ma h file g b e with
    | ok cv => intro hv; exact ⟨cv, rfl, by simpa [Res.map] using hv⟩
    | err => intro hv; simp [Res.map] at hv
    | panic => intro hv; simp [Res.map] at hv
  unfold getSliceCap at hcv
  split at hcv
  · cases hcv
  simp only at hcv
  rw [Res.bind_eq_ok] at hcv
  obtain ⟨bs, _, hcv⟩ := hcv
  have hl : (g.sliceDims (g.nChunks b e)).length = g.dimLengths.length := by
    unfold Getter.sliceDims
    cases g.dimLengths <;> simp
  rw [convertCap_ty g.ty _ _ cv hcv (decodeElems_ty _ _ _) ?_, valTy_congr g.ty _ _ hl]
  intro hk hlen
  have hty : g.ty = .char := by
    revert hk; cases g.ty <;> intro hk <;> first | rfl | cases hk
  rw [hl] at hlen
  obtain ⟨hlt, hb0, hbe, hel⟩ := hc hty hlen
  cases hdl : g.dimLengths with
  | nil => simp [hdl] at hlen
  | cons D ds =>
    rw [hdl] at hlt
    have hpr : prod (D :: ds) = D * prod ds := rfl
    obtain ⟨hpos, hcs, hcs0, hlen', -, -⟩ := getVarCommon_dims hg hdl (by omega)
    have hD : D ≠ 0 := by omega
    have hpp := prod_pos hpos
    obtain ⟨m, hm⟩ : ∃ m : Nat, e - b = m := ⟨(e - b).toNat, by omega⟩
    have hmD : m ≤ D := by omega
    have hDlt : D < 2 ^ 63 := by
      have : D ≤ D * prod ds := Nat.le_mul_of_pos_right _ hpp
      omega
    have hmp : m * prod ds ≤ D * prod ds := Nat.mul_le_mul_right _ hmD
    have hnc : g.nChunks b e = (m : Int) := by
      simp only [Getter.nChunks, hdl, hD, if_false, hm]
      exact w64_nat (by omega)
    rw [hnc, decodeElems_length, hcs hD]
    simp only [Getter.sliceDims, hdl]
    rw [toU64_nat (by omega)]
    have hz : (m : Int) * (prod ds : Nat) = ((m * prod ds : Nat) : Int) := by simp
    rw [hz, w64_nat (by omega)]
    refine ⟨?_, ?_, ?_⟩
    · intro d hd
      simp only [List.mem_cons] at hd
      rcases hd with hd | hd
      · omega
      · exact hpos d hd
    · show m * prod ds ≤ _
      rw [Int.toNat_natCast]
      exact Nat.le_refl _
    · show m * prod ds < _
      omega

end Verif.Cdf
