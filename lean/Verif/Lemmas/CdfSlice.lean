import Verif.Lemmas.CdfData
/-!
`GetSlice` on variables that are stored in one piece.
-/
namespace Verif.Cdf

theorem w64_id {x : Int} (h1 : -2 ^ 63 ≤ x) (h2 : x < 2 ^ 63) : w64 x = x := by
  unfold w64; omega

theorem w64_nat {n : Nat} (h : n < 2 ^ 63) : w64 (n : Int) = n := w64_id (by omega) (by omega)

/-- `n` bytes read from a stream that continues with the fill pattern. -/
def filled (s pat : Bytes) (n : Nat) : Bytes :=
  s.take n ++ fillStream pat (n - (s.take n).length)

theorem fillStream_length (pat : Bytes) (n : Nat) : (fillStream pat n).length = n := by
  simp [fillStream]

theorem filled_length (s pat : Bytes) (n : Nat) : (filled s pat n).length = n := by
  simp only [filled, List.length_append, fillStream_length, List.length_take]; omega

theorem filled_full {s pat : Bytes} {n : Nat} (h : n ≤ s.length) : filled s pat n = s.take n := by
  have : n - (s.take n).length = 0 := by rw [List.length_take]; omega
  rw [filled, this]
  simp [fillStream]

theorem readKind_size (ty : NcType) : ty.readKind.size = ty.size := by cases ty <;> rfl

/-- The state of a variable whose data is stored in one piece. -/
structure Plain (ma : Nat) (h : Hdr) (g : Getter) (D : Nat) (ds : List Nat) (pat : Bytes) :
    Prop where
  piece : g.unlimited = false ∨ h.special = true
  dims : g.dimLengths = D :: ds
  pos : ∀ d ∈ ds, 0 < d
  chunk : D ≠ 0 → g.chunkSize = (prod ds : Nat)
  chunk0 : D = 0 → g.chunkSize = 0
  room : g.vr.begin_ + D * prod ds * g.ty.size < 2 ^ 63
  fill : fillPattern g.ty g.vr.attrs = .ok pat
  alloc : D * prod ds * g.ty.size ≤ ma

theorem mul_size_le {e b D P s : Nat} (h : e - b ≤ D) : (e - b) * P * s ≤ D * P * s :=
  Nat.mul_le_mul_right _ (Nat.mul_le_mul_right _ h)

theorem readData_plain {ma : Nat} {h : Hdr} {file : Bytes} {g : Getter} {pat : Bytes}
    (hp : g.unlimited = false ∨ h.special = true) (hf : fillPattern g.ty g.vr.attrs = .ok pat)
    {start n : Nat} (h1 : g.vr.begin_ + start < 2 ^ 63) (hn : n ≤ ma) :
    readData ma h file g start n n = .ok (filled (file.drop (g.vr.begin_ + start)) pat n) := by
  unfold readData
  have hc : ¬ (g.unlimited = true ∧ h.special = false) := by
    rintro ⟨ha, hb⟩
    rcases hp with h' | h'
    · rw [ha] at h'; cases h'
    · rw [hb] at h'; cases h'
  have hw : w64 (w64 (g.vr.begin_ : Int) + (start : Int)) = ((g.vr.begin_ + start : Nat) : Int) := by
    rw [w64_nat (by omega), ← Int.natCast_add, w64_nat h1]
  rw [if_neg hc, hw]
  simp only [seekFrom]
  rw [if_neg (by omega)]
  simp only [Res.bind_ok, hf, Res.pure_eq, Int.toNat_natCast]
  rw [if_neg (by omega), if_neg (by omega)]
  rfl

theorem toU64_nat {n : Nat} (h : n < 2 ^ 64) : toU64 (n : Int) = n := by
  unfold toU64; omega

theorem getSlice_reach {ma : Nat} {h : Hdr} {file : Bytes} {g : Getter} {D : Nat} {ds : List Nat}
    {pat : Bytes} (hpl : Plain ma h g D ds pat) (b e : Nat) (hbe : b ≤ e) (he : D = 0 → e = 0)
    (hroom : g.vr.begin_ + e * prod ds * g.ty.size < 2 ^ 63) (halloc : (e - b) * prod ds * g.ty.size ≤ ma)
    (hz : e = b → ds.length ≤ 1 ∨ g.ty ≠ .char) :
    getSlice ma h file g b e = .ok (nestV g.ty ((e - b) :: ds)
      (decodeElems g.ty.readKind ((e - b) * prod ds)
        (filled (file.drop (g.vr.begin_ + b * prod ds * g.ty.size)) pat
          ((e - b) * prod ds * g.ty.size)))) := by
  have hsz := NcType.size_pos g.ty
  have hP : 0 < prod ds := prod_pos hpl.pos
  have hn1 : (e - b) * prod ds * g.ty.size ≤ e * prod ds * g.ty.size := mul_size_le (by omega)
  have hn2 : b * prod ds * g.ty.size ≤ e * prod ds * g.ty.size :=
    Nat.mul_le_mul_right _ (Nat.mul_le_mul_right _ (by omega))
  have hn3 : (e - b) * prod ds ≤ (e - b) * prod ds * g.ty.size := Nat.le_mul_of_pos_right _ hsz
  have hn4 : b * prod ds ≤ b * prod ds * g.ty.size := Nat.le_mul_of_pos_right _ hsz
  have hn5 : e - b ≤ (e - b) * prod ds := Nat.le_mul_of_pos_right _ hP
  unfold getSlice getSliceCap
  rw [if_neg (by omega)]
  have hchunks : g.nChunks b e = ((e - b : Nat) : Int) := by
    unfold Getter.nChunks
    rw [hpl.dims]
    simp only
    split
    · rename_i hd; omega
    · rw [show ((e : Int) - (b : Int)) = ((e - b : Nat) : Int) by omega]
      exact w64_nat (by omega)
  simp only [hchunks]
  have hslice : w64 (((e - b : Nat) : Int) * g.chunkSize) = (((e - b) * prod ds : Nat) : Int) := by
    by_cases hD : D = 0
    · rw [hpl.chunk0 hD]
      have : e - b = 0 := by omega
      rw [this]; simp [w64]
    · rw [hpl.chunk hD, ← Int.natCast_mul, w64_nat (by omega)]
  have hstart : w64 (w64 ((b : Int) * g.chunkSize) * (g.ty.size : Int))
      = ((b * prod ds * g.ty.size : Nat) : Int) := by
    by_cases hD : D = 0
    · rw [hpl.chunk0 hD]
      have : b = 0 := by omega
      rw [this]; simp [w64]
    · rw [hpl.chunk hD, ← Int.natCast_mul, w64_nat (by omega), ← Int.natCast_mul,
        w64_nat (by omega)]
  rw [hslice, hstart, ← Int.natCast_mul, w64_nat (by omega)]
  rw [readData_plain hpl.piece hpl.fill (by omega) (by omega)]
  simp only [Res.bind_ok, Int.toNat_natCast, Getter.sliceDims, hpl.dims]
  rw [toU64_nat (by omega)]
  obtain ⟨cv, h1, h2⟩ := convertCap_exact g.ty ((e - b) :: ds)
    (decodeElems g.ty.readKind ((e - b) * prod ds)
        (filled (file.drop (g.vr.begin_ + b * prod ds * g.ty.size)) pat
          ((e - b) * prod ds * g.ty.size)))
    (by simpa using hpl.pos) (by rw [decodeElems_length]; rfl)
    (by simp only [prod]; omega)
    (by
      intro h0
      simp only [List.head?_cons, Option.some.injEq] at h0
      have := hz (by omega)
      simp only [List.length_cons]
      rcases this with h' | h'
      · left; omega
      · right; exact h')
  rw [h1]
  simp only [Res.map, h2]

theorem getSlice_plain {ma : Nat} {h : Hdr} {file : Bytes} {g : Getter} {D : Nat} {ds : List Nat}
    {pat : Bytes} (hpl : Plain ma h g D ds pat) (b e : Nat) (hbe : b ≤ e) (he : e ≤ D)
    (hz : e = b → ds.length ≤ 1 ∨ g.ty ≠ .char) :
    getSlice ma h file g b e = .ok (nestV g.ty ((e - b) :: ds)
      (decodeElems g.ty.readKind ((e - b) * prod ds)
        (filled (file.drop (g.vr.begin_ + b * prod ds * g.ty.size)) pat
          ((e - b) * prod ds * g.ty.size)))) := by
  have hroom := hpl.room
  have hn : e * prod ds * g.ty.size ≤ D * prod ds * g.ty.size := Nat.mul_le_mul_right _ (Nat.mul_le_mul_right _ he)
  exact getSlice_reach hpl b e hbe (by omega) (by omega) (Nat.le_trans (mul_size_le (by omega)) hpl.alloc) hz

/-! ### Streams of whole elements -/

theorem fillStream_drop {pat : Bytes} {i n : Nat} (h : pat.length ∣ i) :
    (fillStream pat (i + n)).drop i = fillStream pat n := by
  apply List.ext_getElem
  · simp [fillStream]
  · intro j h1 h2
    simp only [fillStream, List.getElem_drop, List.getElem_map, List.getElem_range]
    obtain ⟨c, rfl⟩ := h
    simp only [Nat.mul_add_mod]

theorem fillStream_take {pat : Bytes} {i n : Nat} (h : i ≤ n) :
    (fillStream pat n).take i = fillStream pat i := by
  apply List.ext_getElem
  · simp [fillStream, Nat.min_eq_left h]
  · intro j h1 h2
    simp [fillStream]

/-- Reading a stretch of whole elements from the middle of a stream of whole elements gives the
same bytes as reading everything and cutting. -/
theorem filled_cut {s pat : Bytes} {a m n : Nat} (hp : pat.length ∣ a)
    (hs : n ≤ s.length ∨ pat.length ∣ s.length) (h : a + m ≤ n) :
    ((filled s pat n).drop a).take m = filled (s.drop a) pat m := by
  by_cases hfull : a + m ≤ s.length
  · rw [filled_full (s := s.drop a) (by simp; omega)]
    simp only [filled]
    rw [List.drop_append_of_le_length (by simp; omega),
      List.take_append_of_le_length (by simp; omega), List.drop_take, List.take_take]
    congr 1; omega
  · have hs' : pat.length ∣ s.length := by
      rcases hs with h' | h'
      · omega
      · exact h'
    have ht : s.take n = s := List.take_of_length_le (by omega)
    simp only [filled, ht]
    by_cases ha : a ≤ s.length
    · rw [List.drop_append_of_le_length ha, List.take_append, List.length_drop]
      rw [List.take_of_length_le (l := s.drop a) (i := m) (by simp; omega)]
      rw [fillStream_take (by omega)]
      simp
    · have hd : s.drop a = [] := List.drop_eq_nil_of_le (by omega)
      have e1 : n - s.length = (a - s.length) + (n - a) := by omega
      rw [List.drop_append, hd, e1, fillStream_drop ((Nat.dvd_sub hp hs')), List.nil_append,
        fillStream_take (by omega)]
      simp

end Verif.Cdf

namespace Verif.Cdf

/-! ### What `getVarCommon` computes -/

theorem varDims_pos {h : Hdr} {ids : List Nat} {i : Nat} {r : List (Nat × Bytes)} {u : Bool}
    (hv : varDims h ids (i + 1) = .ok (r, u)) : u = false ∧ ∀ x ∈ r, 0 < x.1 := by
  induction ids generalizing i r u with
  | nil => simp [varDims] at hv; obtain ⟨rfl, rfl⟩ := hv; simp
  | cons id ids ih =>
    unfold varDims at hv
    cases hd : h.dims[id]? with
    | none => simp [hd] at hv
    | some d =>
      simp only [hd] at hv
      split at hv
      · cases hv
      · rename_i hn
        have hn' : d.length ≠ 0 := by intro h0; exact hn ⟨h0, by omega⟩
        rw [Res.bind_eq_ok] at hv
        obtain ⟨⟨r', u'⟩, h1, h2⟩ := hv
        obtain ⟨hu, hr⟩ := ih h1
        simp only [Res.pure_eq, Res.ok.injEq, Prod.mk.injEq] at h2
        obtain ⟨rfl, rfl⟩ := h2
        constructor
        · simp [hu, hn']
        · intro x hx
          rcases List.mem_cons.mp hx with rfl | hx
          · simp [hn']; omega
          · exact hr x hx

theorem totalSize_cons (d : Nat) (ds : List Nat) (n : Int) :
    totalSize (d :: ds) n = totalSize ds (w64 (n * w64 d)) := rfl

theorem w64_zero : w64 0 = 0 := w64_id (by decide) (by decide)

theorem totalSize_zero (ds : List Nat) : totalSize ds 0 = 0 := by
  induction ds with
  | nil => rfl
  | cons d ds ih => rw [totalSize_cons, Int.zero_mul, w64_zero, ih]

theorem totalSize_eq (ds : List Nat) (n : Nat) (hpos : ∀ d ∈ ds, 0 < d) (hn : 0 < n)
    (h : n * prod ds < 2 ^ 63) : totalSize ds n = ((n * prod ds : Nat) : Int) := by
  induction ds generalizing n with
  | nil => simp [totalSize, prod]
  | cons d ds ih =>
    have hd := hpos d (by simp)
    have hP : 0 < prod ds := prod_pos (fun x hx => hpos x (by simp [hx]))
    simp only [prod] at h ⊢
    rw [← Nat.mul_assoc] at h ⊢
    have h1 : n * d < 2 ^ 63 := Nat.lt_of_le_of_lt (Nat.le_mul_of_pos_right _ hP) h
    have h2 : d < 2 ^ 63 := Nat.lt_of_le_of_lt (Nat.le_mul_of_pos_left _ hn) h1
    rw [totalSize_cons, w64_nat h2, ← Int.natCast_mul, w64_nat h1]
    exact ih (n * d) (fun x hx => hpos x (by simp [hx])) (Nat.mul_pos hn hd) h

/-- The getter of a variable with at least one dimension. -/
theorem getVarCommon_dims {h : Hdr} {name : Bytes} {g : Getter} {D : Nat} {ds : List Nat}
    (hg : getVarCommon h name = .ok g) (hd : g.dimLengths = D :: ds)
    (hb : D * prod ds < 2 ^ 63) :
    (∀ d ∈ ds, 0 < d) ∧ (D ≠ 0 → g.chunkSize = (prod ds : Nat)) ∧ (D = 0 → g.chunkSize = 0) ∧
      g.length = D ∧ h.vars.get name = some g.vr ∧ NcType.ofCode g.vr.vType = some g.ty := by
  unfold getVarCommon at hg
  cases hv : h.vars.get name with
  | none => simp [hv] at hg
  | some v =>
    simp only [hv] at hg
    rw [Res.bind_eq_ok] at hg
    obtain ⟨⟨r, u⟩, h1, h2⟩ := hg
    simp only at h2
    cases ht : NcType.ofCode v.vType with
    | none => simp [ht] at h2
    | some ty =>
      simp only [ht, Res.pure_eq, Res.ok.injEq] at h2
      subst h2
      simp only at hd ⊢
      have hpos : ∀ d ∈ ds, 0 < d := by
        cases hids : v.dimids with
        | nil => rw [hids] at h1; simp [varDims] at h1; obtain ⟨rfl, _⟩ := h1; simp at hd
        | cons id ids =>
          rw [hids] at h1
          unfold varDims at h1
          cases hdim : h.dims[id]? with
          | none => simp [hdim] at h1
          | some dm =>
            simp only [hdim] at h1
            split at h1
            · cases h1
            · rw [Res.bind_eq_ok] at h1
              obtain ⟨⟨r', u'⟩, h3, h4⟩ := h1
              simp only [Res.pure_eq, Res.ok.injEq, Prod.mk.injEq] at h4
              obtain ⟨rfl, _⟩ := h4
              simp only [List.map_cons, List.cons.injEq] at hd
              obtain ⟨_, rfl⟩ := hd
              intro d hdm
              simp only [List.mem_map] at hdm
              obtain ⟨x, hx, rfl⟩ := hdm
              exact (varDims_pos h3).2 x hx
      have hP := prod_pos hpos
      simp only [hd]
      refine ⟨hpos, ?_, ?_, ?_, trivial, ht⟩
      · intro hD
        have hD' : 0 < D := by omega
        have hDb : D < 2 ^ 63 := Nat.lt_of_le_of_lt (Nat.le_mul_of_pos_right _ hP) hb
        simp only [hD, if_false]
        have ht1 : totalSize (D :: ds) 1 = ((D * prod ds : Nat) : Int) := by
          have := totalSize_eq (D :: ds) 1 (by
            intro d hdm
            rcases List.mem_cons.mp hdm with rfl | hdm
            · exact hD'
            · exact hpos d hdm) (by omega) (by simpa [prod] using hb)
          simpa [prod] using this
        rw [ht1, w64_nat hDb]
        have : ((D * prod ds : Nat) : Int).tdiv (D : Int) = ((prod ds : Nat) : Int) := by
          rw [Int.natCast_mul, Int.mul_tdiv_cancel_left _ (by omega)]
        rw [this, w64_nat]
        exact Nat.lt_of_le_of_lt (Nat.le_mul_of_pos_left _ hD') hb
      · intro hD
        subst hD
        simp only [if_true]
        rw [totalSize_cons, show ((0 : Nat) : Int) = 0 from rfl, w64_zero, Int.mul_zero, w64_zero]
        exact totalSize_zero ds
      · by_cases hD : D = 0
        · simp [hD]
        · simp only [hD, if_false]
          exact w64_nat (Nat.lt_of_le_of_lt (Nat.le_mul_of_pos_right _ hP) hb)

/-- Reading a whole element range of an aligned stream. -/
theorem decode_cut {ty : NcType} {s pat : Bytes} {D P b e : Nat} (hbe : b ≤ e) (he : e ≤ D)
    (hpat : pat.length = ty.size)
    (hs : D * P * ty.size ≤ s.length ∨ ty.size ∣ s.length) :
    decodeElems ty.readKind ((e - b) * P)
        (filled (s.drop (b * P * ty.size)) pat ((e - b) * P * ty.size))
      = ((decodeElems ty.readKind (D * P) (filled s pat (D * P * ty.size))).drop (b * P)).take
          ((e - b) * P) := by
  have hm : b * P + (e - b) * P ≤ D * P := by
    rw [← Nat.add_mul]; exact Nat.mul_le_mul_right _ (by omega)
  have hm2 : b * P * ty.size + (e - b) * P * ty.size ≤ D * P * ty.size := by
    rw [← Nat.add_mul]; exact Nat.mul_le_mul_right _ hm
  rw [← filled_cut (n := D * P * ty.size) (by rw [hpat]; exact Nat.dvd_mul_left _ _)
    (by rw [hpat]; exact hs) hm2]
  obtain ⟨c, hc⟩ : ∃ c, D * P = b * P + ((e - b) * P + c) := ⟨D * P - b * P - (e - b) * P, by omega⟩
  generalize filled s pat (D * P * ty.size) = F
  rw [hc, decodeElems_drop, decodeElems_take, readKind_size]
  rw [← readKind_size ty, decodeElems_take_bytes]

end Verif.Cdf
