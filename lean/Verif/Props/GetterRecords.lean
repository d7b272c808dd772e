import Verif.Props.Getter
/-!
C58: slices of CDF record variables that begin at the first record or before.
-/
namespace Verif.Cdf

/-- The readers of the records give all the bytes, or the end of the records is reached. -/
theorem readMulti_records {file : Bytes} {B V R : Nat} (k i : Nat) (start size : Int) (n : Nat) (hst : start ≤ 0)
    (hst' : -2 ^ 63 ≤ start) (hn : n = 0 ∨ (n : Int) ≤ size) (hs1 : size < 2 ^ 63) (hV : V < 2 ^ 63)
    (hin : ∀ j, j < i + k → B + j * R + V ≤ file.length) (hfile : file.length < 2 ^ 63) :
    (∃ x, readMulti file (V : Int) (recordReaders (B : Int) V R k i start size) n = .err x) ∨
    ∃ b, readMulti file (V : Int) (recordReaders (B : Int) V R k i start size) n = .ok b := by
  induction k generalizing i start size n with
  | zero =>
    cases n with
    | zero => exact .inr ⟨[], by simp [recordReaders, readMulti]⟩
    | succ n => exact .inl ⟨.eof, by simp [recordReaders, readMulti]⟩
  | succ k ih =>
    cases n with
    | zero => exact .inr ⟨[], by unfold readMulti; rfl⟩
    | succ n =>
      have hsz : (n : Int) + 1 ≤ size := by
        rcases hn with h0 | h0
        · omega
        · simpa using h0
      have hi := hin i (by omega)
      have hinc : w64 ((i : Int) * (R : Int)) = ((i * R : Nat) : Int) := by
        rw [← Int.natCast_mul]; exact w64_nat (by omega)
      unfold recordReaders
      rw [if_pos (by omega)]
      simp only [hinc]
      rw [if_neg (by omega)]
      unfold readMulti
      have hsub : w64 (size - (V : Int)) = size - V := w64_id (by omega) (by omega)
      rw [hsub]
      have hin' : ∀ j, j < i + 1 + k → B + j * R + V ≤ file.length := fun j hj => hin j (by omega)
      split
      · exact ih (i + 1) 0 (size - V) (n + 1) (by omega) (by omega) (.inr (by push_cast; omega)) (by omega) hin'
      · have hoff : w64 (w64 ((B : Int) + ((i * R : Nat) : Int)) + start) = ((B + i * R : Nat) : Int) + start := by
          rw [← Int.natCast_add, w64_nat (by omega), w64_id (by omega) (by omega)]
        rw [hoff]
        unfold seekFrom
        split
        · exact .inl ⟨.other, rfl⟩
        · rename_i hV0 hneg
          simp only [Res.bind_ok, Int.toNat_natCast]
          have hlen : (((file.drop (((B + i * R : Nat) : Int) + start).toNat).take V).take (n + 1)).length =
              min (n + 1) V := by
            simp only [List.length_take, List.length_drop]
            omega
          rw [hlen]
          rcases ih (i + 1) 0 (size - V) (n + 1 - min (n + 1) V) (by omega) (by omega)
              (by omega) (by omega) hin' with ⟨x, hx⟩ | ⟨r, hr⟩
          · exact .inl ⟨x, by rw [hx]; rfl⟩
          · exact .inr ⟨_, by rw [hr]; rfl⟩

/-- What `getSlice` of a record variable reads from record 0 or before. -/
theorem getSliceCap_records {ma : Nat} {file : Bytes} {h : Hdr} {name : Bytes} {g : Getter}
    (ho : openCdf ma file = .ok h) (hg : getVarCommon h name = .ok g) (hu : g.unlimited = true) (hs : h.special = false) :
    ∃ ds, g.dimLengths = h.numRecs :: ds ∧
      (0 < h.numRecs → (∀ i, i < h.numRecs → g.vr.begin_ + i * h.recSize + prod ds * g.ty.size ≤ file.length) →
      file.length < 2 ^ 63 → h.recSize < 2 ^ 63 → h.numRecs * prod ds < 2 ^ 63 → h.numRecs * 16 ≤ ma →
      ∀ b e : Int, b ≤ 0 → b ≤ e → -2 ^ 63 ≤ b * prod ds * g.ty.size →
      (e - b) * prod ds * g.ty.size ≤ ma → (e - b) * prod ds * g.ty.size < 2 ^ 63 →
      (∃ x, getSliceCap ma h file g b e = .err x) ∨
      ∃ n cv, e - b = ((n : Nat) : Int) ∧ n < 2 ^ 63 ∧ getSliceCap ma h file g b e = .ok cv ∧
        CapRect g.ty (n :: ds) cv) := by
  obtain ⟨ds, hd, hpos, hvs⟩ := record_dims ho hg hu
  refine ⟨ds, hd, ?_⟩
  intro hD hin hfile hrec hroom ha b e hb hge hmin halloc hmax
  obtain ⟨-, hc, -, -, -, -⟩ := getVarCommon_dims hg hd hroom
  have hc := hc (by omega)
  have hsz := NcType.size_pos g.ty
  have hP : 0 < prod ds := prod_pos hpos
  have hfirst := hin 0 hD
  have hvs := hvs (by omega)
  obtain ⟨n, hn⟩ := Int.eq_ofNat_of_zero_le (show 0 ≤ e - b by omega)
  obtain ⟨m, hm⟩ := Int.eq_ofNat_of_zero_le (show 0 ≤ -b by omega)
  have hbm : b = -(m : Int) := by omega
  rw [hn, ← Int.natCast_mul, ← Int.natCast_mul] at halloc hmax
  rw [hbm, Int.neg_mul, Int.neg_mul, ← Int.natCast_mul, ← Int.natCast_mul] at hmin
  have hn3 : n * prod ds ≤ n * prod ds * g.ty.size := Nat.le_mul_of_pos_right _ hsz
  have hn5 : n ≤ n * prod ds := Nat.le_mul_of_pos_right _ hP
  have hm3 : m * prod ds ≤ m * prod ds * g.ty.size := Nat.le_mul_of_pos_right _ hsz
  have hchunks : g.nChunks b e = (n : Int) := by
    unfold Getter.nChunks
    rw [hd]
    simp only
    rw [if_neg (by omega), hn]
    exact w64_nat (by omega)
  have hslice : w64 ((n : Int) * g.chunkSize) = ((n * prod ds : Nat) : Int) := by
    rw [hc, ← Int.natCast_mul, w64_nat (by omega)]
  have hstart : w64 (w64 (b * g.chunkSize) * (g.ty.size : Int)) = -((m * prod ds * g.ty.size : Nat) : Int) := by
    rw [hc, hbm, Int.neg_mul, ← Int.natCast_mul, w64_id (x := -((m * prod ds : Nat) : Int)) (by omega) (by omega),
      Int.neg_mul, ← Int.natCast_mul, w64_id (by omega) (by omega)]
  unfold getSliceCap
  rw [if_neg (by omega)]
  simp only [hchunks, hslice, hstart, ← Int.natCast_mul]
  rw [w64_nat (by omega)]
  unfold readData
  rw [if_pos ⟨hu, hs⟩, if_neg (by omega), if_neg (by omega), w64_nat (by omega), w64_nat hrec, hvs, Int.toNat_natCast]
  rcases readMulti_records (file := file) (B := g.vr.begin_) (V := prod ds * g.ty.size) (R := h.recSize) h.numRecs 0
      (-((m * prod ds * g.ty.size : Nat) : Int)) ((n * prod ds * g.ty.size : Nat) : Int) (n * prod ds * g.ty.size)
      (by omega) (by omega) (.inr (by omega)) (by omega) (by omega) (fun j hj => hin j (by omega)) hfile with
    ⟨x, hx⟩ | ⟨r, hr⟩
  · exact .inl ⟨x, by rw [hx]; rfl⟩
  · right
    rw [hr]
    simp only [Res.bind_ok, Getter.sliceDims, hd, Int.toNat_natCast]
    rw [toU64_nat (by omega)]
    generalize hdata : decodeElems g.ty.readKind (n * prod ds) _ = data
    have hlen : data.length = n * prod ds := by rw [← hdata, decodeElems_length]
    by_cases hz : n = 0 ∧ 2 ≤ ds.length
    · obtain ⟨hz, hl⟩ := hz
      obtain ⟨cv, h1⟩ := convertCap_empty g.ty n ds data hl (by rw [hlen, hz]; simp)
      exact ⟨n, cv, hn, by omega, h1, convertCap_rect h1 (by rw [hlen]; rfl) hpos (by simp only [prod]; omega)⟩
    · obtain ⟨cv, h1, h2⟩ := convertCap_exact g.ty (n :: ds) data (by simpa using hpos) (by rw [hlen]; rfl)
        (by simp only [prod]; omega)
        (by
          intro h0
          simp only [List.head?_cons, Option.some.injEq] at h0
          simp only [List.length_cons]
          omega)
      exact ⟨n, cv, hn, by omega, h1, convertCap_rect h1 (by rw [hlen]; rfl) hpos (by simp only [prod]; omega)⟩

/-- **C58** (partial, CDF). `GetSlice` of a variable with an unlimited dimension, in an accepted file that has
the bytes of all records, returns a value or an error if the slice begins at record 0 or before, wherever it
ends, and the amount fits in memory. Missing: slices that begin behind record 0 (`C58_negation_record`), and
files that end inside of the records (`C58_negation_record_cut`): these panic. -/
theorem C58_cdf_records_partial {ma : Nat} {file : Bytes} {h : Hdr} {name : Bytes} {g : Getter}
    (ho : openCdf ma file = .ok h) (hg : getVarCommon h name = .ok g) (hu : g.unlimited = true) (hs : h.special = false) :
    ∃ ds, g.dimLengths = h.numRecs :: ds ∧
      (0 < h.numRecs → (∀ i, i < h.numRecs → g.vr.begin_ + i * h.recSize + prod ds * g.ty.size ≤ file.length) →
      file.length < 2 ^ 63 → h.recSize < 2 ^ 63 → h.numRecs * prod ds < 2 ^ 63 → h.numRecs * 16 ≤ ma →
      ∀ b e : Int, b ≤ 0 → b ≤ e → -2 ^ 63 ≤ b * prod ds * g.ty.size →
      (e - b) * prod ds * g.ty.size ≤ ma → (e - b) * prod ds * g.ty.size < 2 ^ 63 →
      (∃ x, getSlice ma h file g b e = .err x) ∨ ∃ w, getSlice ma h file g b e = .ok w) := by
  obtain ⟨ds, hd, key⟩ := getSliceCap_records ho hg hu hs
  refine ⟨ds, hd, ?_⟩
  intro hD hin hfile hrec hroom ha b e hb hge hmin halloc hmax
  rcases key hD hin hfile hrec hroom ha b e hb hge hmin halloc hmax with ⟨x, hx⟩ | ⟨n, cv, -, -, h1, -⟩
  · exact .inl ⟨x, by rw [getSlice, hx]; rfl⟩
  · exact .inr ⟨cv.erase, by rw [getSlice, h1]; rfl⟩

/-- **C58** (partial, CDF). The same for `GetSliceMD`, with bounds of the other dimensions inside them. -/
theorem C58_cdf_record_boxes_partial {ma : Nat} {file : Bytes} {h : Hdr} {name : Bytes} {g : Getter}
    (ho : openCdf ma file = .ok h) (hg : getVarCommon h name = .ok g) (hu : g.unlimited = true) (hs : h.special = false) :
    ∃ ds, g.dimLengths = h.numRecs :: ds ∧
      (0 < h.numRecs → (∀ i, i < h.numRecs → g.vr.begin_ + i * h.recSize + prod ds * g.ty.size ≤ file.length) →
      file.length < 2 ^ 63 → h.recSize < 2 ^ 63 → h.numRecs * prod ds < 2 ^ 63 → h.numRecs * 16 ≤ ma →
      ∀ b e : Int, b ≤ 0 → -2 ^ 63 ≤ b * prod ds * g.ty.size →
      (e - b) * prod ds * g.ty.size ≤ ma → (e - b) * prod ds * g.ty.size < 2 ^ 63 →
      ∀ rs : List (Nat × Nat), InBox rs ds →
      (∃ x, getSliceMD ma h file g (b :: rs.map (fun r => (r.1 : Int))) (e :: rs.map (fun r => (r.2 : Int))) = .err x) ∨
      ∃ w, getSliceMD ma h file g (b :: rs.map (fun r => (r.1 : Int))) (e :: rs.map (fun r => (r.2 : Int))) = .ok w) := by
  obtain ⟨ds, hd, key⟩ := getSliceCap_records ho hg hu hs
  refine ⟨ds, hd, ?_⟩
  intro hD hin hfile hrec hroom ha b e hb hmin halloc hmax rs hbox
  have hz : (rs.map (fun r => (r.1 : Int))).zip (rs.map (fun r => (r.2 : Int))) = intRanges rs := by
    rw [intRanges, List.zip_map']
  unfold getSliceMD
  split
  · exact .inl ⟨_, rfl⟩
  · split
    · exact .inl ⟨_, rfl⟩
    · rename_i hord
      have hge : b ≤ e := by
        rw [List.zip_cons_cons, List.any_cons] at hord
        simp only [Bool.or_eq_true, decide_eq_true_eq, not_or] at hord
        omega
      simp only [hz]
      rcases key hD hin hfile hrec hroom ha b e hb hge hmin halloc hmax with ⟨x, hx⟩ | ⟨n, cv, hn, hn', h1, h2⟩
      · exact .inl ⟨x, by rw [hx]; rfl⟩
      · right
        rw [h1, hn, w64_nat hn']
        exact sliceRecursive_value h2 (rs := (0, n) :: rs) ⟨by omega, by omega, hbox⟩ (by simp)

-- slices of a real file with two records that end behind them, or begin before them, or before the file
example : ∃ h g w, openCdf 300 (fileInt 0) = .ok h ∧ getVarCommon h (ascii "v") = .ok g ∧
    g.unlimited = true ∧ h.special = false ∧ getSlice 300 h (fileInt 0) g (-2) 0 = .ok w ∧
    getSlice 300 h (fileInt 0) g 0 7 = .err .eof ∧ getSlice 300 h (fileInt 0) g (-50) 0 = .err .other := by
  obtain ⟨h, g, h1, h2, h3⟩ := witness 300 (fileInt 0) "v" (fun h g =>
    decide (g.dimLengths = [2] ∧ h.numRecs = 2 ∧ h.recSize = 4 ∧ g.vr.begin_ = 80 ∧ g.ty.size = 4 ∧
    g.unlimited = true ∧ h.special = false ∧ (getSlice 300 h (fileInt 0) g (-2) 0).isOk = true ∧
    getSlice 300 h (fileInt 0) g 0 7 = .err .eof ∧ getSlice 300 h (fileInt 0) g (-50) 0 = .err .other))
    (by decide +kernel)
  obtain ⟨g1, g2, g3, g4, g5, g6, g7, g8, g9, g10⟩ := of_decide_eq_true h3
  obtain ⟨ds, k1, key⟩ := C58_cdf_records_partial h1 h2 g6 g7
  have hds : ds = [] := by
    rw [g1] at k1
    simp only [List.cons.injEq] at k1
    exact k1.2.symm
  subst hds
  rw [g2, g3, g4, g5] at key
  have hl : (fileInt 0).length = 88 := by decide +kernel
  rcases key (by decide) (by intro i hi; rw [hl]; simp only [prod]; omega) (by rw [hl]; decide) (by decide) (by decide)
    (by decide) (-2) 0 (by decide) (by decide) (by decide) (by decide) (by decide) with ⟨x, hx⟩ | ⟨w, hw⟩
  · rw [hx] at g8; cases g8
  · exact ⟨h, g, w, h1, h2, g6, g7, hw, g9, g10⟩

/-- A variable of two records of two `int`s. -/
def recBoxFile : Bytes :=
  ascii "CDF" ++ [1] ++ beEnc 4 2 ++
  beEnc 4 10 ++ beEnc 4 2 ++ beEnc 4 1 ++ ascii "t" ++ [0, 0, 0] ++ beEnc 4 0 ++
  beEnc 4 1 ++ ascii "x" ++ [0, 0, 0] ++ beEnc 4 2 ++
  beEnc 4 0 ++ beEnc 4 0 ++
  beEnc 4 11 ++ beEnc 4 1 ++
  beEnc 4 1 ++ ascii "v" ++ [0, 0, 0] ++ beEnc 4 2 ++ beEnc 4 0 ++ beEnc 4 1 ++ beEnc 4 0 ++ beEnc 4 0 ++
    beEnc 4 4 ++ beEnc 4 8 ++ beEnc 4 96 ++
  beEnc 4 7 ++ beEnc 4 8 ++ beEnc 4 9 ++ beEnc 4 10

-- the second number of both records, and of a record that is not there
example : ∃ h g, openCdf 300 recBoxFile = .ok h ∧ getVarCommon h (ascii "v") = .ok g ∧ g.unlimited = true ∧
    h.special = false ∧
    getSliceMD 300 h recBoxFile g [0, 1] [2, 2] =
      .ok (.slice (.slice (.num .i32)) [.slice (.num .i32) [.num .i32 8], .slice (.num .i32) [.num .i32 10]]) ∧
    ∃ x, getSliceMD 300 h recBoxFile g [0, 1] [3, 2] = .err x := by
  obtain ⟨h, g, h1, h2, h3⟩ := witness 300 recBoxFile "v" (fun h g =>
    decide (g.dimLengths = [2, 2] ∧ h.numRecs = 2 ∧ h.recSize = 8 ∧ g.vr.begin_ = 96 ∧ g.ty.size = 4 ∧
    g.unlimited = true ∧ h.special = false ∧ getSliceMD 300 h recBoxFile g [0, 1] [2, 2] =
      .ok (.slice (.slice (.num .i32)) [.slice (.num .i32) [.num .i32 8], .slice (.num .i32) [.num .i32 10]]) ∧
    (getSliceMD 300 h recBoxFile g [0, 1] [3, 2]).isOk = false))
    (by decide +kernel)
  obtain ⟨g1, g2, g3, g4, g5, g6, g7, g8, g9⟩ := of_decide_eq_true h3
  obtain ⟨ds, k1, key⟩ := C58_cdf_record_boxes_partial h1 h2 g6 g7
  have hds : ds = [2] := by
    rw [g1] at k1
    simp only [List.cons.injEq] at k1
    exact k1.2.symm
  subst hds
  rw [g2, g3, g4, g5] at key
  have hl : recBoxFile.length = 112 := by decide +kernel
  refine ⟨h, g, h1, h2, g6, g7, g8, ?_⟩
  rcases key (by decide) (by intro i hi; rw [hl]; simp only [prod]; omega) (by rw [hl]; decide) (by decide) (by decide)
    (by decide) 0 3 (by decide) (by decide) (by decide) (by decide) [(1, 2)] ⟨by decide, by decide, trivial⟩ with
    hx | ⟨w, hw⟩
  · exact hx
  · exact absurd (by rw [show getSliceMD 300 h recBoxFile g [0, 1] [3, 2] = .ok w from hw]; rfl) (ne_true_of_eq_false g9)

/-- **C58, negation** (CDF). In a file that ends inside of its first record, `GetSlice(0, 1)` panics: the rest
of the record is looked for in the reader of the next one, which is nil. The whole variable is an error. -/
theorem C58_negation_record_cut : ∃ file, runValues 100 file "v" = .err .eof ∧ runSlice 100 file "v" 0 1 = .panic :=
  ⟨(fileInt 0).take 82, by decide +kernel⟩

/-- **C58, negation** (CDF). Whatever the file, `GetSlice` of a variable with an unlimited dimension panics if
it begins behind record 0 and is not empty, also if all of it is in the variable: the reader of record 0 is
nil, and it is the first to be read. -/
theorem C58_negation_record_any {ma : Nat} {file : Bytes} {h : Hdr} {name : Bytes} {g : Getter}
    (ho : openCdf ma file = .ok h) (hg : getVarCommon h name = .ok g) (hu : g.unlimited = true) (hs : h.special = false) :
    ∃ ds, g.dimLengths = h.numRecs :: ds ∧
      (0 < h.numRecs → h.numRecs * prod ds < 2 ^ 63 → ∀ b e : Nat, 0 < b → b < e → e * prod ds * g.ty.size < 2 ^ 63 →
      getSlice ma h file g b e = .panic) := by
  obtain ⟨ds, hd, hpos, -⟩ := record_dims ho hg hu
  refine ⟨ds, hd, ?_⟩
  intro hD hroom b e hb hbe hmax
  obtain ⟨-, hc, -, -, -, -⟩ := getVarCommon_dims hg hd hroom
  have hc := hc (by omega)
  have hsz := NcType.size_pos g.ty
  have hP : 0 < prod ds := prod_pos hpos
  have hb1 : b * prod ds * g.ty.size ≤ e * prod ds * g.ty.size :=
    Nat.mul_le_mul_right _ (Nat.mul_le_mul_right _ (by omega))
  have hb2 : (e - b) * prod ds * g.ty.size ≤ e * prod ds * g.ty.size :=
    Nat.mul_le_mul_right _ (Nat.mul_le_mul_right _ (by omega))
  have hb3 : b * prod ds ≤ b * prod ds * g.ty.size := Nat.le_mul_of_pos_right _ hsz
  have hb4 : (e - b) * prod ds ≤ (e - b) * prod ds * g.ty.size := Nat.le_mul_of_pos_right _ hsz
  have hb5 : e - b ≤ (e - b) * prod ds := Nat.le_mul_of_pos_right _ hP
  have hb6 : b ≤ b * prod ds := Nat.le_mul_of_pos_right _ hP
  have hchunks : g.nChunks b e = ((e - b : Nat) : Int) := by
    unfold Getter.nChunks
    rw [hd]
    simp only
    rw [if_neg (by omega), show (e : Int) - (b : Int) = ((e - b : Nat) : Int) by omega]
    exact w64_nat (by omega)
  have hslice : w64 (((e - b : Nat) : Int) * g.chunkSize) = (((e - b) * prod ds : Nat) : Int) := by
    rw [hc, ← Int.natCast_mul, w64_nat (by omega)]
  have hstart : w64 (w64 ((b : Int) * g.chunkSize) * (g.ty.size : Int)) = ((b * prod ds * g.ty.size : Nat) : Int) := by
    rw [hc, ← Int.natCast_mul, w64_nat (n := b * prod ds) (by omega), ← Int.natCast_mul, w64_nat (by omega)]
  unfold getSlice getSliceCap
  rw [if_neg (by omega)]
  simp only [hchunks, hslice, hstart, ← Int.natCast_mul]
  rw [w64_nat (by omega)]
  unfold readData
  rw [if_pos ⟨hu, hs⟩]
  split
  · rfl
  · split
    · rfl
    · obtain ⟨k, hk⟩ : ∃ k, h.numRecs = k + 1 := ⟨h.numRecs - 1, by omega⟩
      obtain ⟨n, hn⟩ : ∃ n, (e - b) * prod ds * g.ty.size = n + 1 := ⟨(e - b) * prod ds * g.ty.size - 1, by omega⟩
      rw [hk, hn, Int.toNat_natCast]
      unfold recordReaders
      rw [if_pos (by omega)]
      simp only [Int.natCast_zero, Int.zero_mul, w64_zero]
      rw [if_pos (by omega)]
      rfl

-- the second record of a real file
example : ∃ h g, openCdf 300 (fileInt 0) = .ok h ∧ getVarCommon h (ascii "v") = .ok g ∧ g.length = 2 ∧
    getSlice 300 h (fileInt 0) g 1 2 = .panic := by
  obtain ⟨h, g, h1, h2, h3⟩ := witness 300 (fileInt 0) "v" (fun h g =>
    decide (g.dimLengths = [2] ∧ h.numRecs = 2 ∧ g.ty.size = 4 ∧ g.length = 2 ∧
    g.unlimited = true ∧ h.special = false)) (by decide +kernel)
  obtain ⟨g1, g2, g3, g4, g5, g6⟩ := of_decide_eq_true h3
  obtain ⟨ds, k1, key⟩ := C58_negation_record_any h1 h2 g5 g6
  have hds : ds = [] := by
    rw [g1] at k1
    simp only [List.cons.injEq] at k1
    exact k1.2.symm
  subst hds
  rw [g2, g3] at key
  exact ⟨h, g, h1, h2, g4, key (by decide) (by decide) 1 2 (by decide) (by decide) (by decide)⟩

end Verif.Cdf
