import Verif.Lemmas.CdfRecord
import Verif.Spec.FillValue
/-!
What a successful `Values()` tells about a variable.
-/
namespace Verif.Cdf

/-- From a successful `Values()`. -/
theorem plain_of_values {ma : Nat} {h : Hdr} {file name : Bytes} {g : Getter} {D : Nat}
    {ds : List Nat} {v : GoVal} (hg : getVarCommon h name = .ok g) (hd : g.dimLengths = D :: ds)
    (hone : g.unlimited = false ∨ h.special = true)
    (hroom : g.vr.begin_ + D * prod ds * g.ty.size < 2 ^ 63)
    (hv : values ma h file g = .ok v) : ∃ pat, Plain ma h g D ds pat := by
  have hsz := NcType.size_pos g.ty
  have hb : D * prod ds < 2 ^ 63 := by
    have : D * prod ds ≤ D * prod ds * g.ty.size := Nat.le_mul_of_pos_right _ hsz
    omega
  obtain ⟨hpos, hc, hc0, hl, _, _⟩ := getVarCommon_dims hg hd hb
  have hP := prod_pos hpos
  have hDP : D ≤ D * prod ds := Nat.le_mul_of_pos_right _ hP
  have hDPs : D * prod ds ≤ D * prod ds * g.ty.size := Nat.le_mul_of_pos_right _ hsz
  unfold values getSlice getSliceCap at hv
  rw [hl, if_neg (by omega)] at hv
  have hchunks : g.nChunks 0 D = (D : Int) := by
    unfold Getter.nChunks
    rw [hd]
    simp only
    split
    · rename_i h0; omega
    · rw [Int.sub_zero]; exact w64_nat (by omega)
  have hslice : w64 ((D : Int) * g.chunkSize) = ((D * prod ds : Nat) : Int) := by
    by_cases hD : D = 0
    · rw [hc0 hD, Int.mul_zero, w64_zero, hD]; simp
    · rw [hc hD, ← Int.natCast_mul, w64_nat (by omega)]
  simp only [hchunks, hslice] at hv
  rw [Int.zero_mul, w64_zero, Int.zero_mul, w64_zero, ← Int.natCast_mul, w64_nat (by omega)] at hv
  unfold readData at hv
  have hcn : ¬ (g.unlimited = true ∧ h.special = false) := by
    rintro ⟨ha, hb⟩
    rcases hone with h' | h'
    · rw [ha] at h'; cases h'
    · rw [hb] at h'; cases h'
  rw [if_neg hcn] at hv
  cases hf : fillPattern g.ty g.vr.attrs with
  | ok pat =>
    refine ⟨pat, hone, hd, hpos, hc, hc0, hroom, hf, ?_⟩
    rcases Nat.lt_or_ge ma (D * prod ds * g.ty.size) with hlt | hge
    · exfalso
      rw [hf] at hv
      have hsk : ∀ s : Bytes, (do
          let pat ← Res.ok pat
          if ((D * prod ds * g.ty.size : Nat) : Int) < 0 ∨
            ((D * prod ds * g.ty.size : Nat) : Int) > ma then Res.panic
          else if ((D * prod ds * g.ty.size : Nat) : Int) < ((D * prod ds * g.ty.size : Nat) : Int)
            then Res.err .eof
          else
            let b := s.take ((D * prod ds * g.ty.size : Nat) : Int).toNat
            pure (b ++ fillStream pat (((D * prod ds * g.ty.size : Nat) : Int).toNat - b.length)))
          = (Res.panic : Res Bytes) := by
        intro s
        simp only [Res.bind_ok]
        rw [if_pos (by omega)]
      cases hs : seekFrom file (w64 (w64 (g.vr.begin_ : Int) + 0)) with
      | ok s => rw [hs, Res.bind_ok, hsk] at hv; simp at hv
      | err e => rw [hs] at hv; simp at hv
      | panic => rw [hs] at hv; simp at hv
    · exact hge
  | err e =>
    exfalso
    rw [hf] at hv
    cases hs : seekFrom file (w64 (w64 (g.vr.begin_ : Int) + 0)) with
    | ok s => rw [hs] at hv; simp at hv
    | err e => rw [hs] at hv; simp at hv
    | panic => rw [hs] at hv; simp at hv
  | panic =>
    exfalso
    rw [hf] at hv
    cases hs : seekFrom file (w64 (w64 (g.vr.begin_ : Int) + 0)) with
    | ok s => rw [hs] at hv; simp at hv
    | err e => rw [hs] at hv; simp at hv
    | panic => rw [hs] at hv; simp at hv

theorem fillPattern_length {ty : NcType} {attrs : OMap GoVal} {pat : Bytes}
    (h : fillPattern ty attrs = .ok pat) : pat.length = ty.size := by
  have hd : (defaultFill ty).length = ty.size := by cases ty <;> simp [defaultFill, NcType.size]
  have hu : ∀ v, userFill ty v = .ok pat → pat.length = ty.size := by
    intro v hv
    unfold userFill at hv
    split at hv
    · split at hv
      · rename_i hk
        simp only [Res.ok.injEq] at hv
        rw [← hv, beEnc_length, hk, readKind_size]
      · cases hv
    · cases hv
  unfold fillPattern at h
  split at h
  · simp only [Res.ok.injEq] at h; rw [← h]; exact hd
  · exact hu _ h
  · cases h
  · exact hu _ h

theorem fillStream_replicate (pat : Bytes) (k : Nat) :
    fillStream pat (k * pat.length) = (List.replicate k pat).flatten := by
  induction k with
  | zero => simp [fillStream]
  | succ k ih =>
    have h1 : (fillStream pat ((k + 1) * pat.length)).take pat.length = pat := by
      rw [fillStream_take (by rw [Nat.succ_mul]; omega)]
      apply List.ext_getElem
      · simp [fillStream]
      · intro j h1 h2
        simp only [fillStream, List.getElem_map, List.getElem_range, Nat.mod_eq_of_lt h2]
        simp [h2]
    have h2 : (fillStream pat ((k + 1) * pat.length)).drop pat.length
        = fillStream pat (k * pat.length) := by
      rw [show (k + 1) * pat.length = pat.length + k * pat.length by rw [Nat.succ_mul]; omega]
      exact fillStream_drop (Nat.dvd_refl _)
    rw [← List.take_append_drop pat.length (fillStream pat ((k + 1) * pat.length)), h1, h2, ih]
    simp [List.replicate_succ]

theorem fillPattern_spec {ty : NcType} {attrs : OMap GoVal} {pat : Bytes}
    (h : fillPattern ty attrs = .ok pat)
    (hbits : ∀ v k bits, attrs.get (ascii "_FillValue") = some v →
      (v = .num k bits ∨ ∃ t, v = .slice t [.num k bits]) → bits < 256 ^ k.size) :
    FillOf ty.kind (attrs.get (ascii "_FillValue")) pat := by
  have hrk : ty.kind.getD .u8 = ty.readKind := rfl
  have hu : ∀ v, userFill ty v = .ok pat →
      (∀ k bits, v = .num k bits → bits < 256 ^ k.size) →
      v = .num ty.readKind (beDec pat) ∧ pat.length = ty.readKind.size := by
    intro v hv hb
    unfold userFill at hv
    split at hv
    · split at hv
      · rename_i k bits hk
        simp only [Res.ok.injEq] at hv
        subst hk
        rw [← hv, beDec_beEnc_of_lt (hb _ _ rfl), beEnc_length]
        exact ⟨rfl, rfl⟩
      · cases hv
    · cases hv
  unfold fillPattern at h
  unfold FillOf
  cases hget : attrs.get (ascii "_FillValue") with
  | none =>
    rw [hget] at h
    simp only [Res.ok.injEq] at h
    simp only
    rw [← h]
    cases ty <;> decide
  | some v =>
    rw [hget] at h
    simp only
    rw [hrk]
    split at h
    · rename_i h0; cases h0
    · rename_i t x h0
      simp only [Option.some.injEq] at h0
      subst h0
      obtain ⟨h1, h2⟩ := hu _ h (fun k bits hk => hbits _ k bits hget (Or.inr ⟨_, by rw [hk]⟩))
      exact ⟨Or.inr ⟨_, by rw [h1]⟩, h2⟩
    · cases h
    · rename_i h0
      simp only [Option.some.injEq] at h0
      subst h0
      obtain ⟨h1, h2⟩ := hu _ h (fun k bits hk => hbits _ k bits hget (Or.inl hk))
      exact ⟨Or.inl h1, h2⟩

end Verif.Cdf
