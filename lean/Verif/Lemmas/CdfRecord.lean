import Verif.Lemmas.CdfBox
import Verif.Lemmas.CdfParse
/-!
Record variables.
-/
namespace Verif.Cdf

theorem recordReaders_eq {B vs R : Nat} {n i m : Nat} (hm : m ≤ n) (hvs : 0 < vs)
    (hsz : m * vs < 2 ^ 63) (hoff : ∀ j, j < i + m → B + j * R < 2 ^ 63) :
    recordReaders (B : Int) (vs : Int) (R : Int) n i 0 ((m * vs : Nat) : Int)
      = (List.range' i m).map (fun j => some ((B + j * R : Nat) : Int))
        ++ List.replicate (n - m) none := by
  induction m generalizing n i with
  | zero =>
    cases n with
    | zero => simp [recordReaders]
    | succ n => simp [recordReaders]
  | succ m ih =>
    cases n with
    | zero => omega
    | succ n =>
      unfold recordReaders
      have hpos : ((0 : Int)) < (((m + 1) * vs : Nat) : Int) := by
        have : 0 < (m + 1) * vs := Nat.mul_pos (by omega) hvs
        omega
      have hiR := hoff i (by omega)
      rw [if_pos hpos]
      simp only
      rw [show (i : Int) * (R : Int) = ((i * R : Nat) : Int) by simp, w64_nat (by omega)]
      rw [if_neg (by omega), ← Int.natCast_add, w64_nat (by omega), Int.add_zero, w64_nat (by omega)]
      have e1 : (((m + 1) * vs : Nat) : Int) - (vs : Int) = ((m * vs : Nat) : Int) := by
        rw [Nat.succ_mul]; omega
      rw [Nat.succ_mul] at hsz
      rw [e1, w64_nat (by omega)]
      rw [ih (n := n) (i := i + 1) (by omega) (by omega)
        (fun j hj => hoff j (by omega))]
      rw [List.range'_succ, List.map_cons, List.cons_append]
      rw [show n + 1 - (m + 1) = n - m by omega]

theorem readMulti_eq {file : Bytes} {vs : Nat} (hvs : 0 < vs) (offs : List Nat)
    (hin : ∀ o ∈ offs, o + vs ≤ file.length) (rest : List (Option Int)) :
    readMulti file (vs : Int) (offs.map (fun (o : Nat) => some (o : Int)) ++ rest) (offs.length * vs)
      = .ok (offs.flatMap (fun o => (file.drop o).take vs)) := by
  induction offs with
  | nil => simp [readMulti]
  | cons o offs ih =>
    obtain ⟨n, hn⟩ : ∃ n, (o :: offs).length * vs = n + 1 := by
      have : 0 < (o :: offs).length * vs := Nat.mul_pos (by simp) hvs
      exact ⟨_, (Nat.sub_add_cancel this).symm⟩
    rw [hn]
    simp only [List.map_cons, List.cons_append, readMulti]
    rw [if_neg (by omega)]
    simp only [seekFrom]
    rw [if_neg (by omega)]
    simp only [Res.bind_ok, Int.toNat_natCast]
    have ho := hin o (by simp)
    have hl : ((file.drop o).take vs).length = vs := by
      rw [List.length_take, List.length_drop]; omega
    have hn' : offs.length * vs + vs = n + 1 := by rw [← hn, List.length_cons, Nat.succ_mul]
    rw [List.take_of_length_le (l := (file.drop o).take vs) (by omega), hl]
    rw [show n + 1 - vs = offs.length * vs by omega, ih (fun x hx => hin x (by simp [hx]))]
    simp

/-- A variable with an unlimited dimension has it first; the size of its records. -/
theorem record_dims {ma : Nat} {file : Bytes} {h : Hdr} {name : Bytes} {g : Getter}
    (ho : openCdf ma file = .ok h) (hg : getVarCommon h name = .ok g) (hu : g.unlimited = true) :
    ∃ ds, g.dimLengths = h.numRecs :: ds ∧ (∀ d ∈ ds, 0 < d) ∧
      (prod ds * g.ty.size < 2 ^ 63 → g.vr.vsize = ((prod ds * g.ty.size : Nat) : Int)) := by
  have hi := openCdf_inv ho
  unfold getVarCommon at hg
  cases hv : h.vars.get name with
  | none => simp [hv] at hg
  | some v =>
    have hvi := (hi.vars name v hv).2
    simp only [hv] at hg
    rw [Res.bind_eq_ok] at hg
    obtain ⟨⟨r, u⟩, h1, h2⟩ := hg
    simp only at h2
    cases ht : NcType.ofCode v.vType with
    | none => simp [ht] at h2
    | some ty =>
      simp only [ht, Res.pure_eq, Res.ok.injEq] at h2
      subst h2
      simp only at hu ⊢
      subst hu
      cases hids : v.dimids with
      | nil => rw [hids] at h1; simp [varDims] at h1
      | cons id ids =>
        rw [hids] at h1
        unfold varDims at h1
        cases hdim : h.dims[id]? with
        | none => simp [hdim] at h1
        | some dm =>
          simp only [hdim] at h1
          split at h1
          · cases h1
          · rw [Res.bind_eq_ok] at h1
            obtain ⟨⟨r', u'⟩, h3, h4⟩ := h1
            simp only [Res.pure_eq, Res.ok.injEq, Prod.mk.injEq] at h4
            obtain ⟨rfl, h5⟩ := h4
            obtain ⟨hu', hpos⟩ := varDims_pos h3
            have hz : dm.length = 0 := by simpa [hu'] using h5
            refine ⟨r'.map (·.1), by simp [hz], ?_, ?_⟩
            · intro d hd
              simp only [List.mem_map] at hd
              obtain ⟨x, hx, rfl⟩ := hd
              exact hpos x hx
            · intro hb
              obtain ⟨vs, us, a, hus, hvs, _⟩ := hvi.used
              rw [hids] at hus
              unfold usedSize at hus
              simp only [hasUnlimited, hdim, hz, Res.bind_ok, beq_self_eq_true, if_true,
                List.tail_cons, ht] at hus
              rw [Res.bind_eq_ok] at hus
              obtain ⟨m, hm, hus⟩ := hus
              simp only [Res.ok.injEq, Prod.mk.injEq] at hus
              obtain ⟨ls, hls, hm'⟩ := mulDims_ok (by decide) hm
              have hlens : ∀ (ids : List Nat) (i : Nat) (r : List (Nat × Bytes)) (u : Bool),
                  varDims h ids (i + 1) = .ok (r, u) →
                  ids.map (fun id => h.dims[id]?.map (·.length)) = (r.map (·.1)).map some := by
                intro ids
                induction ids with
                | nil => intro i r u hr; simp [varDims] at hr; rw [hr.1]; rfl
                | cons id ids ih =>
                  intro i r u hr
                  unfold varDims at hr
                  cases hd : h.dims[id]? with
                  | none => simp [hd] at hr
                  | some d =>
                    simp only [hd] at hr
                    split at hr
                    · cases hr
                    · rename_i hn
                      have hn' : d.length ≠ 0 := by intro h0; exact hn ⟨h0, by omega⟩
                      rw [Res.bind_eq_ok] at hr
                      obtain ⟨⟨r1, u1⟩, g1, g2⟩ := hr
                      simp only [Res.pure_eq, Res.ok.injEq, Prod.mk.injEq] at g2
                      obtain ⟨rfl, _⟩ := g2
                      simp [hd, hn', ih _ _ _ g1]
              have := hlens _ _ _ _ h3
              rw [this] at hls
              have hls' : r'.map (·.1) = ls := by
                exact (List.map_inj_right (fun _ _ h => Option.some.inj h)).mp hls
              rw [hls'] at hb ⊢
              have hsz := NcType.size_pos ty
              have hP : prod ls ≤ prod ls * ty.size := Nat.le_mul_of_pos_right _ hsz
              rw [Nat.one_mul, Nat.mod_eq_of_lt (by omega)] at hm'
              rw [hvs, ← hus.1, hm', Nat.mod_eq_of_lt (by omega), w64_nat hb]

/-- Reading the first `e` records. -/
theorem getSlice_records_any {ma : Nat} {h : Hdr} {file : Bytes} {g : Getter} {ds : List Nat}
    (hu : g.unlimited = true) (hs : h.special = false) (hd : g.dimLengths = h.numRecs :: ds)
    (hpos : ∀ d ∈ ds, 0 < d) (hchunk : h.numRecs ≠ 0 → g.chunkSize = (prod ds : Nat))
    (hchunk0 : h.numRecs = 0 → g.chunkSize = 0)
    (hvs : g.vr.vsize = ((prod ds * g.ty.size : Nat) : Int))
    (e : Nat) (he : e ≤ h.numRecs)
    (hin : ∀ i, i < e → g.vr.begin_ + i * h.recSize + prod ds * g.ty.size ≤ file.length)
    (hbeg : g.vr.begin_ < 2 ^ 63) (hoff : ∀ i, i < e → g.vr.begin_ + i * h.recSize < 2 ^ 63)
    (hrec : h.recSize < 2 ^ 63)
    (hsize : h.numRecs * prod ds * g.ty.size < 2 ^ 63)
    (ha : h.numRecs * 16 ≤ ma) (ha2 : h.numRecs * prod ds * g.ty.size ≤ ma)
    (hz : e = 0 → ds.length ≤ 1 ∨ g.ty ≠ .char) :
    getSlice ma h file g 0 e = .ok (nestV g.ty (e :: ds)
      (decodeElems g.ty.readKind (e * prod ds)
        ((List.range e).flatMap (fun i =>
          (file.drop (g.vr.begin_ + i * h.recSize)).take (prod ds * g.ty.size))))) := by
  have hsz := NcType.size_pos g.ty
  have hP : 0 < prod ds := prod_pos hpos
  have hn1 : e * prod ds * g.ty.size ≤ h.numRecs * prod ds * g.ty.size :=
    Nat.mul_le_mul_right _ (Nat.mul_le_mul_right _ he)
  have hn3 : e * prod ds ≤ e * prod ds * g.ty.size := Nat.le_mul_of_pos_right _ hsz
  have hn5 : e ≤ e * prod ds := Nat.le_mul_of_pos_right _ hP
  have hoff' : ∀ j, j < 0 + e → g.vr.begin_ + j * h.recSize < 2 ^ 63 :=
    fun j hj => hoff j (by omega)
  unfold getSlice getSliceCap
  rw [if_neg (by omega)]
  have hchunks : g.nChunks 0 e = (e : Int) := by
    unfold Getter.nChunks
    rw [hd]
    simp only
    split
    · rename_i h0; omega
    · rw [Int.sub_zero]; exact w64_nat (by omega)
  have hslice : w64 ((e : Int) * g.chunkSize) = ((e * prod ds : Nat) : Int) := by
    by_cases hD : h.numRecs = 0
    · rw [hchunk0 hD]
      have : e = 0 := by omega
      rw [this, Int.mul_zero, w64_zero]; simp
    · rw [hchunk hD, ← Int.natCast_mul, w64_nat (by omega)]
  simp only [hchunks]
  rw [hslice, Int.zero_mul, w64_zero, Int.zero_mul, w64_zero, ← Int.natCast_mul, w64_nat (by omega)]
  unfold readData
  rw [if_pos ⟨hu, hs⟩, if_neg (by omega), if_neg (by omega)]
  rw [w64_nat (by omega), w64_nat hrec, hvs]
  rw [show e * prod ds * g.ty.size = e * (prod ds * g.ty.size) from Nat.mul_assoc _ _ _]
  rw [recordReaders_eq he (Nat.mul_pos hP hsz) (by rw [← Nat.mul_assoc]; omega) hoff']
  have hmap : (List.range' 0 e).map (fun j => some ((g.vr.begin_ + j * h.recSize : Nat) : Int))
      = ((List.range e).map (fun j => g.vr.begin_ + j * h.recSize)).map
          (fun (o : Nat) => some (o : Int)) := by
    rw [List.map_map, List.range_eq_range']; rfl
  rw [hmap]
  have hrm := readMulti_eq (file := file) (Nat.mul_pos hP hsz)
    ((List.range e).map (fun j => g.vr.begin_ + j * h.recSize)) (by
      intro o ho
      simp only [List.mem_map, List.mem_range] at ho
      obtain ⟨i, hi, rfl⟩ := ho
      exact hin i hi) (List.replicate (h.numRecs - e) none)
  simp only [List.length_map, List.length_range] at hrm
  rw [Int.toNat_natCast, hrm]
  simp only [Res.bind_ok, Int.toNat_natCast, Getter.sliceDims, hd, List.flatMap_map]
  rw [toU64_nat (by omega)]
  obtain ⟨cv, h1, h2⟩ := convertCap_exact g.ty (e :: ds)
    (decodeElems g.ty.readKind (e * prod ds)
        ((List.range e).flatMap (fun i =>
          (file.drop (g.vr.begin_ + i * h.recSize)).take (prod ds * g.ty.size))))
    (by simpa using hpos) (by rw [decodeElems_length]; rfl)
    (by simp only [prod]; omega)
    (by
      intro h0
      simp only [List.head?_cons, Option.some.injEq] at h0
      have := hz h0
      simp only [List.length_cons]
      rcases this with h' | h'
      · left; omega
      · right; exact h')
  rw [h1]
  simp only [Res.map, h2]

/-- Reading the first `e` records. -/
theorem getSlice_records {ma : Nat} {h : Hdr} {file : Bytes} {g : Getter} {ds : List Nat}
    (hu : g.unlimited = true) (hs : h.special = false) (hd : g.dimLengths = h.numRecs :: ds)
    (hpos : ∀ d ∈ ds, 0 < d) (hchunk : h.numRecs ≠ 0 → g.chunkSize = (prod ds : Nat))
    (hchunk0 : h.numRecs = 0 → g.chunkSize = 0)
    (hvs : g.vr.vsize = ((prod ds * g.ty.size : Nat) : Int))
    (e : Nat) (he : e ≤ h.numRecs)
    (hin : ∀ i, i < e → g.vr.begin_ + i * h.recSize + prod ds * g.ty.size ≤ file.length)
    (hoff : g.vr.begin_ + h.numRecs * h.recSize < 2 ^ 63) (hrec : h.recSize < 2 ^ 63)
    (hsize : h.numRecs * prod ds * g.ty.size < 2 ^ 63)
    (ha : h.numRecs * 16 ≤ ma) (ha2 : h.numRecs * prod ds * g.ty.size ≤ ma)
    (hz : e = 0 → ds.length ≤ 1 ∨ g.ty ≠ .char) :
    getSlice ma h file g 0 e = .ok (nestV g.ty (e :: ds)
      (decodeElems g.ty.readKind (e * prod ds)
        ((List.range e).flatMap (fun i =>
          (file.drop (g.vr.begin_ + i * h.recSize)).take (prod ds * g.ty.size))))) := by
  refine getSlice_records_any hu hs hd hpos hchunk hchunk0 hvs e he hin (by omega) ?_ hrec hsize ha
    ha2 hz
  intro i hi
  have : i * h.recSize ≤ h.numRecs * h.recSize := Nat.mul_le_mul_right _ (by omega)
  omega

end Verif.Cdf
