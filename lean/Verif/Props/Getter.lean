import Verif.Props.CdfSlice
import Verif.Props.H5Slices
/-!
C58: failures of the calls on a getter are returned errors.
-/
namespace Verif.Cdf

theorem convertCap_empty (ty : NcType) (n : Nat) (ds : List Nat) (data : List GoVal) (hl : 2 ≤ ds.length)
    (h0 : data.length = 0) : ∃ cv, convertCap ty (n :: ds) data = .ok cv := by
  match ds, hl with
  | d1 :: d2 :: ds', _ => exact ⟨_, by simp only [convertCap]; rw [if_pos h0]⟩

/-- What `getSlice` of a variable stored in one piece reads, for any bounds that are not reversed and fit
in memory. -/
theorem getSliceCap_any {ma : Nat} {h : Hdr} {file name : Bytes} {g : Getter} {D : Nat} {ds : List Nat} {v : GoVal}
    (hg : getVarCommon h name = .ok g) (hd : g.dimLengths = D :: ds) (hone : g.unlimited = false ∨ h.special = true)
    (hv : values ma h file g = .ok v) (hD : 0 < D) (hroomD : g.vr.begin_ + D * prod ds * g.ty.size < 2 ^ 63)
    (b e : Int) (halloc : (e - b) * prod ds * g.ty.size ≤ ma) (hmax : (e - b) * prod ds * g.ty.size < 2 ^ 63)
    (hge : b ≤ e) :
    getSliceCap ma h file g b e = .err .other ∨
    ∃ n cv, e - b = ((n : Nat) : Int) ∧ n < 2 ^ 63 ∧ getSliceCap ma h file g b e = .ok cv ∧
      CapRect g.ty (n :: ds) cv := by
  obtain ⟨pat, hp⟩ := plain_of_values hg hd hone hroomD hv
  obtain ⟨n, hn⟩ := Int.eq_ofNat_of_zero_le (show 0 ≤ e - b by omega)
  rw [hn, ← Int.natCast_mul, ← Int.natCast_mul] at halloc hmax
  have hsz := NcType.size_pos g.ty
  have hP : 0 < prod ds := prod_pos hp.pos
  have hn3 : n * prod ds ≤ n * prod ds * g.ty.size := Nat.le_mul_of_pos_right _ hsz
  have hn5 : n ≤ n * prod ds := Nat.le_mul_of_pos_right _ hP
  have hchunks : g.nChunks b e = (n : Int) := by
    unfold Getter.nChunks
    rw [hd]
    simp only
    rw [if_neg (by omega), hn]
    exact w64_nat (by omega)
  have hslice : w64 ((n : Int) * g.chunkSize) = ((n * prod ds : Nat) : Int) := by
    rw [hp.chunk (by omega), ← Int.natCast_mul, w64_nat (by omega)]
  have hc : ¬ (g.unlimited = true ∧ h.special = false) := by
    rintro ⟨ha, hb⟩
    rcases hone with h' | h'
    · rw [ha] at h'; cases h'
    · rw [hb] at h'; cases h'
  unfold getSliceCap
  rw [if_neg (by omega)]
  simp only [hchunks, hslice, ← Int.natCast_mul]
  rw [w64_nat (by omega)]
  unfold readData
  rw [if_neg hc]
  by_cases hoff : w64 (w64 (g.vr.begin_ : Int) + w64 (w64 (b * g.chunkSize) * (g.ty.size : Int))) < 0
  · left
    simp only [seekFrom, if_pos hoff]
    rfl
  · right
    simp only [seekFrom, if_neg hoff, Res.bind_ok, hp.fill, Res.pure_eq, Int.toNat_natCast]
    rw [if_neg (by omega), if_neg (by omega)]
    simp only [Res.bind_ok, Getter.sliceDims, hd]
    rw [toU64_nat (by omega)]
    generalize hdata : decodeElems g.ty.readKind (n * prod ds) _ = data
    have hlen : data.length = n * prod ds := by rw [← hdata, decodeElems_length]
    by_cases hz : n = 0 ∧ 2 ≤ ds.length
    · obtain ⟨hz, hl⟩ := hz
      obtain ⟨cv, h1⟩ := convertCap_empty g.ty n ds data hl (by rw [hlen, hz]; simp)
      exact ⟨n, cv, hn, by omega, h1, convertCap_rect h1 (by rw [hlen]; rfl) hp.pos (by simp only [prod]; omega)⟩
    · obtain ⟨cv, h1, h2⟩ := convertCap_exact g.ty (n :: ds) data (by simpa using hp.pos) (by rw [hlen]; rfl)
        (by simp only [prod]; omega)
        (by
          intro h0
          simp only [List.head?_cons, Option.some.injEq] at h0
          simp only [List.length_cons]
          omega)
      exact ⟨n, cv, hn, by omega, h1, convertCap_rect h1 (by rw [hlen]; rfl) hp.pos (by simp only [prod]; omega)⟩

/-- **C58** (partial, CDF). For a variable that is stored in one piece `GetSlice` never panics, whatever
the bounds: below zero, reversed, behind the end, also where the offset overflows. It returns an error or
values, if the amount that the bounds ask for fits into memory. Missing: amounts that do not
(`C58_negation_huge`), record variables (`C58_negation_record`). -/
theorem C58_cdf_slices_partial {ma : Nat} {h : Hdr} {file name : Bytes} {g : Getter} {D : Nat} {ds : List Nat} {v : GoVal}
    (hg : getVarCommon h name = .ok g) (hd : g.dimLengths = D :: ds) (hone : g.unlimited = false ∨ h.special = true)
    (hv : values ma h file g = .ok v) (hD : 0 < D) (hroomD : g.vr.begin_ + D * prod ds * g.ty.size < 2 ^ 63)
    (b e : Int) (halloc : (e - b) * prod ds * g.ty.size ≤ ma) (hmax : (e - b) * prod ds * g.ty.size < 2 ^ 63) :
    (e < b ∧ getSlice ma h file g b e = .err .invalidSlice) ∨
    (b ≤ e ∧ getSlice ma h file g b e = .err .other) ∨
    (b ≤ e ∧ ∃ w, getSlice ma h file g b e = .ok w) := by
  rcases Int.lt_or_le e b with hlt | hge
  · exact .inl ⟨hlt, (C11_reversed_partial ma h file g).1 b e hlt⟩
  rcases getSliceCap_any hg hd hone hv hD hroomD b e halloc hmax hge with h1 | ⟨n, cv, -, -, h1, -⟩
  · exact .inr (.inl ⟨hge, by rw [getSlice, h1]; rfl⟩)
  · exact .inr (.inr ⟨hge, cv.erase, by rw [getSlice, h1]; rfl⟩)

-- slices of a real file that begin before the variable, or end behind it, or are reversed
example : ∃ h g v w w', openCdf 100 (fileInt 2) = .ok h ∧ getVarCommon h (ascii "v") = .ok g ∧
    values 100 h (fileInt 2) g = .ok v ∧ getSlice 100 h (fileInt 2) g 1 7 = .ok w ∧
    getSlice 100 h (fileInt 2) g (-3) 1 = .ok w' ∧ getSlice 100 h (fileInt 2) g (-21) 1 = .err .other ∧
    getSlice 100 h (fileInt 2) g 5 (-1) = .err .invalidSlice := by
  obtain ⟨h, g, h1, h2, h3⟩ := witness 100 (fileInt 2) "v" (fun h g =>
    decide (g.dimLengths = [2] ∧ g.unlimited = false ∧
    g.vr.begin_ + 2 * prod [] * g.ty.size < 2 ^ 63 ∧ g.ty.size = 4 ∧
    (getSlice 100 h (fileInt 2) g 1 7).isOk = true ∧ (getSlice 100 h (fileInt 2) g (-3) 1).isOk = true ∧
    getSlice 100 h (fileInt 2) g (-21) 1 = .err .other ∧
    values 100 h (fileInt 2) g = .ok (.slice (.num .i32) [.num .i32 10, .num .i32 20])))
    (by decide +kernel)
  obtain ⟨g1, g2, g3, g4, g5, g6, g7, g8⟩ := of_decide_eq_true h3
  have key := fun b e => C58_cdf_slices_partial h2 g1 (.inl g2) g8 (by decide) g3 b e
  rw [g4] at key
  have k1 := key 1 7 (by decide) (by decide)
  have k2 := key (-3) 1 (by decide) (by decide)
  have k3 := key 5 (-1) (by decide) (by decide)
  rcases k1 with k1 | ⟨-, k1⟩ | ⟨-, w, k1⟩
  · omega
  · rw [k1] at g5; cases g5
  rcases k2 with k2 | ⟨-, k2⟩ | ⟨-, w', k2⟩
  · omega
  · rw [k2] at g6; cases g6
  rcases k3 with ⟨-, k3⟩ | k3 | k3
  · exact ⟨h, g, _, w, w', h1, h2, g8, k1, k2, g7, k3⟩
  · omega
  · omega

/-- Slices of outcomes that are all values. -/
theorem seqRes_values {α β : Type} (f : α → Res β) (l : List α) (h : ∀ x ∈ l, ∃ y, f x = .ok y) :
    ∃ ys, seqRes (l.map f) = .ok ys := by
  induction l with
  | nil => exact ⟨[], rfl⟩
  | cons x xs ih =>
    obtain ⟨y, hy⟩ := h x (by simp)
    obtain ⟨ys, hys⟩ := ih (fun z hz => h z (by simp [hz]))
    exact ⟨y :: ys, by simp only [List.map_cons, seqRes, hy, hys, Res.bind_ok, Res.pure_eq]⟩

/-- A box inside the dimensions can be cut out of what was read, strings too. -/
theorem sliceRecursive_value {ty : NcType} {dims : List Nat} {cv : CapVal} (hc : CapRect ty dims cv)
    {rs : List (Nat × Nat)} (hin : InBox rs dims) (hne : dims ≠ []) :
    ∃ w, sliceRecursive (intRanges rs) cv = .ok w := by
  induction dims generalizing cv rs with
  | nil => exact absurd rfl hne
  | cons d ds ih =>
    cases rs with
    | nil => simp [InBox] at hin
    | cons r rs =>
      obtain ⟨b, e⟩ := r
      obtain ⟨hbe, hed, hin⟩ := hin
      cases ds with
      | nil =>
        simp only [CapRect] at hc
        cases hk : ty.kind with
        | none =>
          rw [hk] at hc
          obtain ⟨s, rfl, hs⟩ := hc
          exact ⟨_, rfl⟩
        | some k =>
          rw [hk] at hc
          obtain ⟨xs, tail, rfl, hx⟩ := hc
          simp only [intRanges, List.map_cons, sliceRecursive]
          rw [reflectSlice_ok hbe (by rw [List.length_append]; omega)]
          exact ⟨_, rfl⟩
      | cons d1 ds =>
        obtain ⟨t, xs, rfl, hx, hxs⟩ := hc
        simp only [intRanges, List.map_cons, sliceRecursive]
        rw [reflectSlice_ok hbe (by omega)]
        simp only [Res.bind_ok]
        obtain ⟨ys, hys⟩ := seqRes_values (sliceRecursive (List.map (fun r => ((r.1 : Int), (r.2 : Int))) rs))
          ((xs.drop b).take (e - b)) (fun x hx' =>
            ih (hxs x (List.mem_of_mem_drop (List.mem_of_mem_take hx'))) hin (by simp))
        rw [hys]
        exact ⟨_, rfl⟩

/-- **C58** (partial, CDF). `GetSliceMD` of a variable stored in one piece returns a value or an error, and
does not panic: for any bounds of the first dimension, before the variable or behind it or reversed, that fit
in memory, and bounds of the other dimensions inside them. Missing: bounds of the other dimensions that are
not inside them, for which it panics (`C58_negation_box`). -/
theorem C58_cdf_boxes_partial {ma : Nat} {h : Hdr} {file name : Bytes} {g : Getter} {D : Nat} {ds : List Nat} {v : GoVal}
    (hg : getVarCommon h name = .ok g) (hd : g.dimLengths = D :: ds) (hone : g.unlimited = false ∨ h.special = true)
    (hv : values ma h file g = .ok v) (hD : 0 < D) (hroomD : g.vr.begin_ + D * prod ds * g.ty.size < 2 ^ 63)
    (b e : Int) (halloc : (e - b) * prod ds * g.ty.size ≤ ma) (hmax : (e - b) * prod ds * g.ty.size < 2 ^ 63)
    (rs : List (Nat × Nat)) (hin : InBox rs ds) :
    (e < b ∧ getSliceMD ma h file g (b :: rs.map (fun r => (r.1 : Int))) (e :: rs.map (fun r => (r.2 : Int))) =
      .err .invalidSlice) ∨
    (b ≤ e ∧ getSliceMD ma h file g (b :: rs.map (fun r => (r.1 : Int))) (e :: rs.map (fun r => (r.2 : Int))) =
      .err .other) ∨
    (b ≤ e ∧ ∃ w, getSliceMD ma h file g (b :: rs.map (fun r => (r.1 : Int)))
      (e :: rs.map (fun r => (r.2 : Int))) = .ok w) := by
  have hlen : rs.length = ds.length := by
    clear hd hmax halloc hroomD
    induction rs generalizing ds with
    | nil => cases ds with
      | nil => rfl
      | cons _ _ => simp [InBox] at hin
    | cons r rs ih => cases ds with
      | nil => simp [InBox] at hin
      | cons _ _ => simp [ih hin.2.2]
  have hz : (rs.map (fun r => (r.1 : Int))).zip (rs.map (fun r => (r.2 : Int))) = intRanges rs := by
    rw [intRanges, List.zip_map']
  have hord : (intRanges rs).any (fun (b, e) => decide (e < b)) = false := by
    clear hd hmax halloc hroomD hlen hz
    induction rs generalizing ds with
    | nil => rfl
    | cons r rs ih => cases ds with
      | nil => simp [InBox] at hin
      | cons _ _ =>
        have := ih hin.2.2
        have h1 := hin.1
        simp only [intRanges, List.map_cons, List.any_cons, Bool.or_eq_false_iff, decide_eq_false_iff_not] at this ⊢
        exact ⟨by omega, this⟩
  unfold getSliceMD
  rw [if_neg (by simp [hd, hlen])]
  simp only [List.zip_cons_cons, hz, List.any_cons, hord, Bool.or_false, decide_eq_true_eq]
  rcases Int.lt_or_le e b with hlt | hge
  · exact .inl ⟨hlt, by rw [if_pos hlt]⟩
  refine .inr ?_
  rw [if_neg (by omega)]
  rcases getSliceCap_any hg hd hone hv hD hroomD b e halloc hmax hge with h1 | ⟨n, cv, hn, hn', h1, h2⟩
  · exact .inl ⟨hge, by rw [h1]; rfl⟩
  · refine .inr ⟨hge, ?_⟩
    rw [h1, hn, w64_nat hn']
    exact sliceRecursive_value h2 (rs := (0, n) :: rs) ⟨by omega, by omega, hin⟩ (by simp)

/-- A file with a variable of two by two by two bytes. -/
def byteBoxFile : Bytes := file3 1 2 2 2 [1, 2, 3, 4, 5, 6, 7, 8]

-- boxes of a real file that begin before the variable and end behind it, or begin before the file, or are
-- reversed
example : ∃ h g v w, openCdf 100 byteBoxFile = .ok h ∧
    getVarCommon h (ascii "v") = .ok g ∧ values 100 h byteBoxFile g = .ok v ∧
    getSliceMD 100 h byteBoxFile g [-2, 0, 1] [5, 1, 2] = .ok w ∧
    getSliceMD 100 h byteBoxFile g [-99, 0, 1] [-98, 1, 2] = .err .other ∧
    getSliceMD 100 h byteBoxFile g [5, 0, 1] [-1, 1, 2] = .err .invalidSlice := by
  obtain ⟨h, g, h1, h2, h3⟩ := witness 100 byteBoxFile "v" (fun h g =>
    decide (g.dimLengths = [2, 2, 2] ∧ g.unlimited = false ∧
    g.vr.begin_ + 2 * prod [2, 2] * g.ty.size < 2 ^ 63 ∧ g.ty.size = 1 ∧
    (getSliceMD 100 h byteBoxFile g [-2, 0, 1] [5, 1, 2]).isOk = true ∧
    getSliceMD 100 h byteBoxFile g [-99, 0, 1] [-98, 1, 2] = .err .other ∧
    (values 100 h byteBoxFile g).isOk = true))
    (by decide +kernel)
  obtain ⟨g1, g2, g3, g4, g5, g6, g7⟩ := of_decide_eq_true h3
  rcases hv : values 100 h byteBoxFile g with v | x | _
  · have key := fun b e => C58_cdf_boxes_partial h2 g1 (.inl g2) hv (by decide) g3 b e
    rw [g4] at key
    have hin : InBox [(0, 1), (1, 2)] [2, 2] := by simp [InBox]
    have k1 := key (-2) 5 (by decide) (by decide) _ hin
    have k3 := key 5 (-1) (by decide) (by decide) _ hin
    simp only [List.map_cons, List.map_nil] at k1 k3
    rcases k1 with k1 | ⟨-, k1⟩ | ⟨-, w, k1⟩
    · omega
    · rw [show [(-2 : Int), 0, 1] = [-2, ((0 : Nat) : Int), ((1 : Nat) : Int)] from rfl,
        show [(5 : Int), 1, 2] = [5, ((1 : Nat) : Int), ((2 : Nat) : Int)] from rfl, k1] at g5
      cases g5
    · rcases k3 with ⟨-, k3⟩ | k3 | k3
      · exact ⟨h, g, v, w, h1, h2, hv, k1, g6, k3⟩
      · omega
      · omega
  · rw [hv] at g7; cases g7
  · rw [hv] at g7; cases g7

/-- **C58** (partial, CDF). `GetSlice` with bounds so far below zero that the data would begin before
the beginning of the file returns an error, whatever the variable: the error of `Seek` is thrown, and
recovered in `GetSlice`. -/
theorem C58_cdf_before_partial {ma : Nat} {h : Hdr} {file : Bytes} {g : Getter} {D : Nat} {ds : List Nat} {pat : Bytes}
    (hpl : Plain ma h g D ds pat) (hD : 0 < D) (b e : Int) (hbe : b ≤ e)
    (hbefore : (g.vr.begin_ : Int) + b * prod ds * g.ty.size < 0) (hmin : -2 ^ 63 ≤ b * prod ds * g.ty.size)
    (hmin1 : -2 ^ 63 ≤ b * prod ds) :
    getSlice ma h file g b e = .err .other := by
  have hc := hpl.chunk (by omega)
  have hr := hpl.room
  have hb : b < 0 := by
    rcases Int.lt_or_le b 0 with h' | h'
    · exact h'
    · have : 0 ≤ b * prod ds * g.ty.size := Int.mul_nonneg (Int.mul_nonneg h' (by omega)) (by omega)
      omega
  have hP : 0 < prod ds := prod_pos hpl.pos
  have h1 : b * prod ds < 0 := Int.mul_neg_of_neg_of_pos hb (by omega)
  have h2 : b * prod ds * g.ty.size < 0 := Int.mul_neg_of_neg_of_pos h1 (by have := NcType.size_pos g.ty; omega)
  have hst : w64 (w64 (b * g.chunkSize) * (g.ty.size : Int)) = b * prod ds * g.ty.size := by
    rw [hc, w64_id (x := b * (prod ds : Int)) hmin1 (by omega), w64_id hmin (by omega)]
  have hoff : w64 (w64 (g.vr.begin_ : Int) + b * prod ds * g.ty.size) < 0 := by
    rw [w64_nat (by omega), w64_id (by omega) (by omega)]
    exact hbefore
  have hc' : ¬ (g.unlimited = true ∧ h.special = false) := by
    rintro ⟨ha, hb⟩
    rcases hpl.piece with h' | h'
    · rw [ha] at h'; cases h'
    · rw [hb] at h'; cases h'
  unfold getSlice getSliceCap
  rw [if_neg (by omega)]
  simp only [hst, readData]
  rw [if_neg hc']
  simp only [seekFrom, if_pos hoff]
  rfl

-- a file with such a variable; `GetVariable` works
example : ∃ file, runValues 100 file "v" = .ok (.slice (.num .i32) [.num .i32 10, .num .i32 20]) ∧
    runSlice 100 file "v" (-21) 1 = .err .other := ⟨fileInt 2, by decide +kernel⟩

example : ∃ h g, openCdf 100 (fileInt 2) = .ok h ∧ getVarCommon h (ascii "v") = .ok g ∧
    getSlice 100 h (fileInt 2) g (-21) 1 = .err .other := by
  obtain ⟨h, g, h1, h2, h3⟩ := witness 100 (fileInt 2) "v" (fun h g =>
    decide (g.dimLengths = [2] ∧ g.unlimited = false ∧
    g.vr.begin_ + 2 * prod [] * g.ty.size < 2 ^ 63 ∧ (g.vr.begin_ : Int) + (-21) * prod [] * g.ty.size < 0 ∧
    -2 ^ 63 ≤ (-21) * (prod [] : Int) * g.ty.size ∧
    values 100 h (fileInt 2) g = .ok (.slice (.num .i32) [.num .i32 10, .num .i32 20])))
    (by decide +kernel)
  obtain ⟨g1, g2, g3, g4, g5, g6⟩ := of_decide_eq_true h3
  obtain ⟨pat, hp⟩ := plain_of_values h2 g1 (.inl g2) g3 g6
  exact ⟨h, g, h1, h2, C58_cdf_before_partial hp (by decide) _ _ (by decide) g4 g5 (by decide)⟩

/-- **C58, negation** (CDF). `GetSlice(1, 2)` of a variable with an unlimited dimension panics: a reader
is nil. That is not an error that was thrown, and `GetSlice` does not recover it. -/
theorem C58_negation_record : ∃ file, runSlice 100 file "v" 0 1 = .ok (.slice (.num .i32) [.num .i32 10]) ∧
    runSlice 100 file "v" 1 2 = .panic := ⟨fileInt 0, by decide +kernel⟩

/-- **C58, negation** (CDF). Whatever the file and the variable, there are bounds that begin in the variable
for which `GetSlice` panics: an end so far behind the variable that the amount cannot be allocated. The end
is not compared with the length of the variable. -/
theorem C58_negation_huge {ma : Nat} {h : Hdr} {file name : Bytes} {g : Getter} {D : Nat} {ds : List Nat} {v : GoVal}
    (hg : getVarCommon h name = .ok g) (hd : g.dimLengths = D :: ds) (hone : g.unlimited = false ∨ h.special = true)
    (hv : values ma h file g = .ok v) (hD : 0 < D) (hroomD : g.vr.begin_ + D * prod ds * g.ty.size < 2 ^ 63)
    (e : Nat) (hma : ma < e * prod ds * g.ty.size) (hmax : e * prod ds * g.ty.size < 2 ^ 63) :
    getSlice ma h file g 0 e = .panic := by
  obtain ⟨pat, hp⟩ := plain_of_values hg hd hone hroomD hv
  have hsz := NcType.size_pos g.ty
  have hP : 0 < prod ds := prod_pos hp.pos
  have hn3 : e * prod ds ≤ e * prod ds * g.ty.size := Nat.le_mul_of_pos_right _ hsz
  have hn5 : e ≤ e * prod ds := Nat.le_mul_of_pos_right _ hP
  have hchunks : g.nChunks 0 e = (e : Int) := by
    unfold Getter.nChunks
    rw [hd]
    simp only
    rw [if_neg (by omega), Int.sub_zero]
    exact w64_nat (by omega)
  have hslice : w64 ((e : Int) * g.chunkSize) = ((e * prod ds : Nat) : Int) := by
    rw [hp.chunk (by omega), ← Int.natCast_mul, w64_nat (by omega)]
  have hc : ¬ (g.unlimited = true ∧ h.special = false) := by
    rintro ⟨ha, hb⟩
    rcases hone with h' | h'
    · rw [ha] at h'; cases h'
    · rw [hb] at h'; cases h'
  unfold getSlice getSliceCap
  rw [if_neg (by omega)]
  simp only [hchunks, hslice, ← Int.natCast_mul]
  rw [w64_nat (by omega)]
  unfold readData
  rw [if_neg hc]
  simp only [Int.zero_mul, w64_zero, Int.add_zero]
  rw [w64_nat (n := g.vr.begin_) (by omega), w64_nat (n := g.vr.begin_) (by omega)]
  simp only [seekFrom]
  rw [if_neg (by omega)]
  simp only [Res.bind_ok, hp.fill, Res.pure_eq]
  rw [if_pos (by omega)]
  rfl

-- such bounds, with a memory of 100 bytes
example : ∃ h g v, openCdf 100 (fileInt 2) = .ok h ∧ getVarCommon h (ascii "v") = .ok g ∧
    values 100 h (fileInt 2) g = .ok v ∧ getSlice 100 h (fileInt 2) g 0 (26 : Nat) = .panic := by
  obtain ⟨h, g, h1, h2, h3⟩ := witness 100 (fileInt 2) "v" (fun h g =>
    decide (g.dimLengths = [2] ∧ g.unlimited = false ∧
    g.vr.begin_ + 2 * prod [] * g.ty.size < 2 ^ 63 ∧ g.ty.size = 4 ∧
    values 100 h (fileInt 2) g = .ok (.slice (.num .i32) [.num .i32 10, .num .i32 20])))
    (by decide +kernel)
  obtain ⟨g1, g2, g3, g4, g5⟩ := of_decide_eq_true h3
  exact ⟨h, g, _, h1, h2, g5, C58_negation_huge h2 g1 (.inl g2) g5 (by decide) g3 26 (by rw [g4]; decide)
    (by rw [g4]; decide)⟩

/-- **C58, negation** (CDF). `GetSliceMD` with a bound below zero, or far behind the end, in a dimension
after the first panics: `reflect` refuses to cut. -/
theorem C58_negation_box : ∃ file, (runSliceMD 100 file "v" [0, 0, 0] [1, 1, 1]).isOk = true ∧
    runSliceMD 100 file "v" [0, -1, 0] [1, 1, 1] = .panic ∧ runSliceMD 100 file "v" [0, 0, 0] [1, 3, 1] = .panic :=
  ⟨file3 1 2 2 2 [1, 2, 3, 4, 5, 6, 7, 8], by decide +kernel⟩

/-- **C58, negation** (CDF). `GetSliceMD` of a scalar without bounds panics (index out of range), for
every scalar of every file. -/
theorem C58_negation_scalar (ma : Nat) (h : Hdr) (file : Bytes) (g : Getter) (hd : g.dimLengths = []) :
    getSliceMD ma h file g [] [] = .panic := by
  simp [getSliceMD, hd]

end Verif.Cdf

namespace Verif.H5

/-- **C58** (partial, HDF5). In every file, whatever calls were made before, bounds that end before
they begin and a wrong number of bounds are returned errors. -/
theorem C58_hdf5_reversed_partial (s : Src) (h : HGetter) (t : VTab) :
    (∀ b e : Int, e < b → (h.getSlice s t b e).2 = .err .invalidSlice) ∧
    (∀ b e : List Int, b.length ≠ h.shape.length ∨ e.length ≠ h.shape.length →
      (h.getSliceMD s t b e).2 = .err .dimensionality) := by
  refine ⟨fun b e hlt => ?_, fun b e hne => ?_⟩
  · unfold HGetter.getSlice
    rw [if_neg (by omega), if_pos hlt]
  · unfold HGetter.getSliceMD
    rw [if_pos hne]

-- bounds below zero, and a slice of a scalar that does not exist, are returned errors in a file that the
-- library has written
example : ∃ file o G x m, closeFile false (fun _ vs => vs) (runCalls fiU slCalls) = .ok file ∧
    OpensTo file o ∧ (rootGroup o).getGroup [47] = .ok G ∧
    G.getVarGetter ⟨fun b => .ok b, 0, file⟩ (ascii "x") = .ok x ∧ x.len = 2 ∧
    G.getVarGetter ⟨fun b => .ok b, 0, file⟩ (ascii "m") = .ok m ∧
    (x.getSlice ⟨fun b => .ok b, 0, file⟩ [] (-1) 1).2 = .err .corrupted ∧
    (x.getSliceMD ⟨fun b => .ok b, 0, file⟩ [] [-1] [1]).2 = .err .corrupted ∧
    (m.getSlice ⟨fun b => .ok b, 0, file⟩ [] 0 0).2 = .err .eof := by
  obtain ⟨file, o, G, x, q, m, h1, h2, h3, h4, -, h5, h6⟩ := sl_case
  exact ⟨file, o, G, x, m, h1, h2, h3, h4, h6.len.1, h5, h6.below.1, h6.below.2, h6.spoiled.1⟩

/-- **C58, negation** (HDF5). In a file that the library has written, with a variable `s` of two sequences
and a scalar `m`: `GetSlice(1, 1)` of `s` panics, and so does `GetSliceMD` of `m` without bounds. Both are
run-time panics, not thrown errors. -/
theorem C58_negation_hdf5 : ∃ file o G q m, closeFile false (fun _ vs => vs) (runCalls fiU slCalls) = .ok file ∧
    OpensTo file o ∧ (rootGroup o).getGroup [47] = .ok G ∧
    G.getVarGetter ⟨fun b => .ok b, 0, file⟩ (ascii "s") = .ok q ∧ q.len = 2 ∧
    G.getVarGetter ⟨fun b => .ok b, 0, file⟩ (ascii "m") = .ok m ∧
    (q.getSlice ⟨fun b => .ok b, 0, file⟩ [] 1 1).2 = .panic ∧
    (m.getSliceMD ⟨fun b => .ok b, 0, file⟩ [] [] []).2 = .panic := by
  obtain ⟨file, o, G, x, q, m, h1, h2, h3, h4, h4', h5, h6⟩ := sl_case
  exact ⟨file, o, G, q, m, h1, h2, h3, h4', h6.len.2.1, h5, h6.empty, C50_negation_scalar _ _ _ h6.len.2.2⟩

end Verif.H5
