import Verif.Lemmas.CdfPlain
import Verif.Lemmas.CdfRecSize
/-!
C09, C10, C11, C12, C13: reading slices of CDF variables.

`ma` is the allocation limit. A handle `h` and a getter `g` are what `Open` and `GetVarGetter`
return for some file. `goSlice b e v` is Go's `v[b:e]` (Spec/Shape.lean), `Stored` says which bytes
an array is laid out as (Spec/Stored.lean).
-/
namespace Verif.Cdf

/-- Open a file, get a variable and slice it. -/
def runSlice (ma : Nat) (file : Bytes) (name : String) (b e : Int) : Res GoVal := do
  let h ← openCdf ma file
  let g ← getVarCommon h (ascii name)
  getSlice ma h file g b e

/-- Open a file, get a variable and return `Values()`. -/
def runValues (ma : Nat) (file : Bytes) (name : String) : Res GoVal := do
  let h ← openCdf ma file
  let g ← getVarCommon h (ascii name)
  values ma h file g

/-- Open a file, get a variable and slice it in all dimensions. -/
def runSliceMD (ma : Nat) (file : Bytes) (name : String) (b e : List Int) : Res GoVal := do
  let h ← openCdf ma file
  let g ← getVarCommon h (ascii name)
  getSliceMD ma h file g b e

/-- A concrete file that opens, with a variable that is found, and a fact about the two. -/
theorem witness (ma : Nat) (file : Bytes) (name : String) (p : Hdr → Getter → Bool)
    (hp : (match openCdf ma file with
      | .ok h => match getVarCommon h (ascii name) with
        | .ok g => p h g
        | _ => false
      | _ => false) = true) :
    ∃ h g, openCdf ma file = .ok h ∧ getVarCommon h (ascii name) = .ok g ∧ p h g = true := by
  split at hp
  · rename_i h heq
    split at hp
    · rename_i g heq2
      exact ⟨h, g, heq, heq2, hp⟩
    · cases hp
  · cases hp

/-- A version 1 file with one `int` variable `v` of shape `t = 2`, stored values 10 and 20, where
`t` has the recorded length `tlen` (0: unlimited). -/
def fileInt (tlen : Nat) : Bytes :=
  ascii "CDF" ++ [1] ++ beEnc 4 2 ++
  beEnc 4 10 ++ beEnc 4 1 ++ beEnc 4 1 ++ ascii "t" ++ [0, 0, 0] ++ beEnc 4 tlen ++
  beEnc 4 0 ++ beEnc 4 0 ++
  beEnc 4 11 ++ beEnc 4 1 ++ beEnc 4 1 ++ ascii "v" ++ [0, 0, 0] ++ beEnc 4 1 ++ beEnc 4 0 ++
    beEnc 4 0 ++ beEnc 4 0 ++ beEnc 4 4 ++ beEnc 4 4 ++ beEnc 4 80 ++
  beEnc 4 10 ++ beEnc 4 20

/-- A version 1 file with a variable `v` of type `ty` over dimensions `a`, `b`, `c` of the given
lengths, followed by `data`. -/
def file3 (ty a b c : Nat) (data : Bytes) : Bytes :=
  ascii "CDF" ++ [1] ++ beEnc 4 0 ++
  beEnc 4 10 ++ beEnc 4 3 ++
    beEnc 4 1 ++ ascii "a" ++ [0, 0, 0] ++ beEnc 4 a ++
    beEnc 4 1 ++ ascii "b" ++ [0, 0, 0] ++ beEnc 4 b ++
    beEnc 4 1 ++ ascii "c" ++ [0, 0, 0] ++ beEnc 4 c ++
  beEnc 4 0 ++ beEnc 4 0 ++
  beEnc 4 11 ++ beEnc 4 1 ++ beEnc 4 1 ++ ascii "v" ++ [0, 0, 0] ++
    beEnc 4 3 ++ beEnc 4 0 ++ beEnc 4 1 ++ beEnc 4 2 ++
    beEnc 4 0 ++ beEnc 4 0 ++ beEnc 4 ty ++ beEnc 4 data.length ++ beEnc 4 112 ++
  data

/-! ### C09 -/

/-- **C09** (partial). For a variable of rank at least one that is stored in one piece (every
variable without the unlimited dimension, and a lone small record variable), `GetSlice(b, e)` is
`Values()[b:e]` for all `0 ≤ b ≤ e ≤ Len()`.

What is missing, and false of the code: record variables in general (`C09_negation_record`), files
cut off in the middle of an element (`C09_negation_truncated`), and empty slices of character
arrays of rank three and more, which have the wrong type (`C09_negation_empty`). Sizes whose byte
count passes 2^63 are excluded. -/
theorem C09_getSlice_partial {ma : Nat} {h : Hdr} {file name : Bytes} {g : Getter} {D : Nat}
    {ds : List Nat} {v : GoVal}
    (hg : getVarCommon h name = .ok g) (hd : g.dimLengths = D :: ds)
    (hone : g.unlimited = false ∨ h.special = true)
    (hroom : g.vr.begin_ + D * prod ds * g.ty.size < 2 ^ 63)
    (hwhole : g.vr.begin_ + D * prod ds * g.ty.size ≤ file.length ∨
      g.ty.size ∣ file.length - g.vr.begin_)
    (hv : values ma h file g = .ok v)
    (b e : Nat) (hbe : b ≤ e) (he : e ≤ D)
    (hempty : b = e → ds.length ≤ 1 ∨ g.ty ≠ .char) :
    getSlice ma h file g b e = .ok (goSlice b e v) := by
  obtain ⟨pat, hp⟩ := plain_of_values hg hd hone hroom hv
  have hpl := fillPattern_length hp.fill
  have hlen : g.length = D := by
    have hsz := NcType.size_pos g.ty
    have : D * prod ds ≤ D * prod ds * g.ty.size := Nat.le_mul_of_pos_right _ hsz
    exact (getVarCommon_dims hg hd (by omega)).2.2.2.1
  have hsl := getSlice_plain (file := file) hp b e hbe he (fun h0 => hempty h0.symm)
  by_cases hz : D = 0 ∧ ¬ (ds.length ≤ 1 ∨ g.ty ≠ .char)
  · exact absurd (hempty (by omega)) hz.2
  · have hall := getSlice_plain (file := file) hp 0 D (by omega) (by omega) (by
      intro h0
      by_cases hx : ds.length ≤ 1 ∨ g.ty ≠ .char
      · exact hx
      · exact absurd ⟨h0, hx⟩ hz)
    unfold values at hv
    rw [hlen, show (0 : Int) = ((0 : Nat) : Int) from rfl, hall] at hv
    simp only [Res.ok.injEq, Nat.sub_zero, Nat.zero_mul, Nat.add_zero] at hv
    rw [hsl, ← hv, goSlice_nestV _ _ _ _ _ _ hbe he]
    have hs : D * prod ds * g.ty.size ≤ (file.drop g.vr.begin_).length ∨
        g.ty.size ∣ (file.drop g.vr.begin_).length := by
      rw [List.length_drop]
      rcases hwhole with h' | h'
      · left; omega
      · right; exact h'
    have hc := decode_cut (P := prod ds) hbe he hpl hs
    rw [List.drop_drop] at hc
    rw [hc, nestV_take _ _ _ _ (by simp [prod])]

-- the hypotheses of C09 hold for a real file, with a proper slice
example : runValues 100 (fileInt 2) "v" = .ok (.slice (.num .i32) [.num .i32 10, .num .i32 20]) ∧
    runSlice 100 (fileInt 2) "v" 1 2 = .ok (.slice (.num .i32) [.num .i32 20]) := by
  decide +kernel

example : ∃ h g v, openCdf 100 (fileInt 2) = .ok h ∧ getVarCommon h (ascii "v") = .ok g ∧
    g.dimLengths = [2] ∧ g.unlimited = false ∧ g.vr.begin_ + 2 * prod [] * g.ty.size < 2 ^ 63 ∧
    g.vr.begin_ + 2 * prod [] * g.ty.size ≤ (fileInt 2).length ∧
    values 100 h (fileInt 2) g = .ok v := by
  obtain ⟨h, g, h1, h2, h3⟩ := witness 100 (fileInt 2) "v" (fun h g =>
    decide (g.dimLengths = [2] ∧ g.unlimited = false ∧
    g.vr.begin_ + 2 * prod [] * g.ty.size < 2 ^ 63 ∧
    g.vr.begin_ + 2 * prod [] * g.ty.size ≤ (fileInt 2).length ∧
    values 100 h (fileInt 2) g = .ok (.slice (.num .i32) [.num .i32 10, .num .i32 20])))
    (by decide +kernel)
  have h3 := of_decide_eq_true h3
  exact ⟨h, g, _, h1, h2, h3⟩

/-- **C09, negation.** With an unlimited dimension `GetSlice(1, 2)` panics (nil reader) although
`Values()` works and has two elements. -/
theorem C09_negation_record : ∃ file,
    runValues 100 file "v" = .ok (.slice (.num .i32) [.num .i32 10, .num .i32 20]) ∧
    runSlice 100 file "v" 1 2 = .panic := ⟨fileInt 0, by decide +kernel⟩

/-- **C09, negation.** When the file ends in the middle of an element, the slice that starts behind
the end of the file is filled in another phase than `Values()`. -/
theorem C09_negation_truncated : ∃ file b, ∃ x y : GoVal,
    runValues 100 file "v" = .ok (.slice (.num .i32) [.num .i32 b, x]) ∧
    runSlice 100 file "v" 1 2 = .ok (.slice (.num .i32) [y]) ∧ x ≠ y :=
  ⟨(fileInt 2).take 82, 0x8000, .num .i32 0x00018000, .num .i32 0x80000001, by decide +kernel⟩

/-- **C09, negation.** An empty slice of a three-dimensional character variable is a
`[][][]uint8`, not a `[][]string`. -/
theorem C09_negation_empty : ∃ file xs,
    runValues 100 file "v" = .ok (.slice (.slice .str) xs) ∧
    runSlice 100 file "v" 0 0 = .ok (.slice (.slice (.slice (.num .u8))) []) :=
  ⟨file3 2 2 2 2 (ascii "abcdefgh"), [.slice .str [.str (ascii "ab"), .str (ascii "cd")],
    .slice .str [.str (ascii "ef"), .str (ascii "gh")]], by decide +kernel⟩

/-! ### C11 -/

/-- **C11** (partial). A slice that ends before it begins is refused, with `GetSlice` and in any
dimension of `GetSliceMD`; so is a wrong number of bounds. Missing, and false of the code: bounds
outside of the variable (`C11_negation`). -/
theorem C11_reversed_partial (ma : Nat) (h : Hdr) (file : Bytes) (g : Getter) :
    (∀ b e : Int, e < b → getSlice ma h file g b e = .err .invalidSlice) ∧
    (∀ b e : List Int, b.length ≠ g.dimLengths.length ∨ e.length ≠ g.dimLengths.length →
      getSliceMD ma h file g b e = .err .tooManyDimensions) ∧
    (∀ b e : List Int, b.length = g.dimLengths.length → e.length = g.dimLengths.length →
      (∃ i, ∃ (h1 : i < b.length) (h2 : i < e.length), e[i] < b[i]) →
      getSliceMD ma h file g b e = .err .invalidSlice) := by
  refine ⟨?_, ?_, ?_⟩
  · intro b e hlt
    unfold getSlice getSliceCap
    rw [if_pos hlt]
    rfl
  · intro b e hne
    unfold getSliceMD
    rw [if_pos hne]
  · intro b e h1 h2 hex
    obtain ⟨i, hi1, hi2, hlt⟩ := hex
    unfold getSliceMD
    rw [if_neg (by omega)]
    rw [if_pos]
    rw [List.any_eq_true]
    refine ⟨(b[i], e[i]), ?_, by simpa using hlt⟩
    have hl : i < (b.zip e).length := by rw [List.length_zip]; omega
    have : (b.zip e)[i] = (b[i], e[i]) := by simp
    rw [← this]
    exact List.getElem_mem hl

/-- **C11, negation.** `GetSlice` past the end returns the bytes that follow (here the fill value;
in a larger file the next variable), and a negative start returns bytes of the header. -/
theorem C11_negation : ∃ file,
    runValues 100 file "v" = .ok (.slice (.num .i32) [.num .i32 10, .num .i32 20]) ∧
    runSlice 100 file "v" 1 3 = .ok (.slice (.num .i32) [.num .i32 20, .num .i32 0x80000001]) ∧
    runSlice 100 file "v" (-1) 1 = .ok (.slice (.num .i32) [.num .i32 80, .num .i32 10]) ∧
    runSlice 100 file "v" 5 6 = .ok (.slice (.num .i32) [.num .i32 0x80000001]) :=
  ⟨fileInt 2, by decide +kernel⟩

/-- In the innermost dimension `GetSliceMD` does not notice a bound outside either: it returns
elements of the following rows. -/
theorem C11_negation_md : ∃ file,
    runSliceMD 100 file "v" [0, 0, 1] [1, 1, 3]
      = .ok (.slice (.slice (.slice (.num .i8)))
          [.slice (.slice (.num .i8)) [.slice (.num .i8) [.num .i8 2, .num .i8 3]]]) ∧
    runSliceMD 100 file "v" [0, 0, 0] [1, 1, 2]
      = .ok (.slice (.slice (.slice (.num .i8)))
          [.slice (.slice (.num .i8)) [.slice (.num .i8) [.num .i8 1, .num .i8 2]]]) :=
  ⟨file3 1 2 2 2 [1, 2, 3, 4, 5, 6, 7, 8], by decide +kernel⟩

/-! ### C10 -/

theorem boxSlice_shift (b e : Nat) (rs : List (Nat × Nat)) (v : GoVal) :
    boxSlice ((0, e - b) :: rs) (goSlice b e v) = boxSlice ((b, e) :: rs) v := by
  cases v with
  | slice t xs => simp [goSlice, boxSlice, List.take_take]
  | str s => simp [goSlice, boxSlice, List.take_take]
  | num k n => simp [goSlice, boxSlice]
  | other b => simp [goSlice, boxSlice]
  | user u => simp [goSlice, boxSlice]

/-- **C10** (partial). For a variable stored in one piece `GetSliceMD(begin, end)` is the sub-box
of `Values()`, cut by `begin[i]:end[i]` in every dimension.

What is missing, and false of the code: character variables of rank two or more whose string
dimension is to be cut (`C10_negation`); and the cases C09 excludes. -/
theorem C10_getSliceMD_partial {ma : Nat} {h : Hdr} {file name : Bytes} {g : Getter} {D : Nat}
    {ds : List Nat} {v : GoVal}
    (hg : getVarCommon h name = .ok g) (hd : g.dimLengths = D :: ds)
    (hone : g.unlimited = false ∨ h.special = true)
    (hroom : g.vr.begin_ + D * prod ds * g.ty.size < 2 ^ 63)
    (hwhole : g.vr.begin_ + D * prod ds * g.ty.size ≤ file.length ∨
      g.ty.size ∣ file.length - g.vr.begin_)
    (hv : values ma h file g = .ok v)
    (rs : List (Nat × Nat)) (hin : InBox rs (D :: ds))
    (hempty : (∃ b r, rs = (b, b) :: r) → ds.length ≤ 1 ∨ g.ty ≠ .char)
    (hstr : g.ty = .char → ds ≠ [] → rs.getLast? = ds.getLast?.map (fun L => (0, L))) :
    getSliceMD ma h file g (rs.map (fun r => (r.1 : Int))) (rs.map (fun r => (r.2 : Int)))
      = .ok (boxSlice rs v) := by
  cases rs with
  | nil => simp [InBox] at hin
  | cons r rs =>
    obtain ⟨b, e⟩ := r
    have hin' := hin
    obtain ⟨hbe, he, hin⟩ := hin
    have hslice := C09_getSlice_partial hg hd hone hroom hwhole hv b e hbe he
      (by intro h0; subst h0; exact hempty ⟨_, _, rfl⟩)
    have hsz := NcType.size_pos g.ty
    obtain ⟨hpos, hc, hc0, _, _, _⟩ := getVarCommon_dims hg hd (by
      have : D * prod ds ≤ D * prod ds * g.ty.size := Nat.le_mul_of_pos_right _ hsz
      omega)
    have hP := prod_pos hpos
    have hDP : D ≤ D * prod ds := Nat.le_mul_of_pos_right _ hP
    have hDPs : D * prod ds ≤ D * prod ds * g.ty.size := Nat.le_mul_of_pos_right _ hsz
    have hlen : ∀ (rs : List (Nat × Nat)) dims, InBox rs dims → rs.length = dims.length := by
      intro rs
      induction rs with
      | nil => intro dims h; cases dims <;> simp_all [InBox]
      | cons r rs ih =>
        intro dims h
        cases dims with
        | nil => simp [InBox] at h
        | cons d ds => simp [ih _ h.2.2]
    have hord : ∀ (rs : List (Nat × Nat)) dims, InBox rs dims →
        ((rs.map (fun r => (r.1 : Int))).zip (rs.map (fun r => (r.2 : Int)))).any
          (fun (b, e) => e < b) = false := by
      intro rs
      induction rs with
      | nil => intro dims h; rfl
      | cons r rs ih =>
        intro dims h
        cases dims with
        | nil => simp [InBox] at h
        | cons d ds =>
          have h1 := h.1
          have h2 := ih _ h.2.2
          simp only [List.map_cons, List.zip_cons_cons, List.any_cons, h2, Bool.or_false]
          simp; omega
    unfold getSliceMD
    rw [if_neg (by
      have := hlen _ _ hin'
      rw [hd]; simp only [List.length_map]; omega)]
    rw [if_neg (by rw [hord _ _ hin']; simp)]
    simp only [List.map_cons]
    unfold getSlice at hslice
    cases hcap : getSliceCap ma h file g b e with
    | err e => rw [hcap] at hslice; cases hslice
    | panic => rw [hcap] at hslice; cases hslice
    | ok cv =>
      rw [hcap] at hslice
      simp only [Res.map, Res.ok.injEq] at hslice
      simp only [Res.bind_ok]
      -- the shape of the partial data
      have hcr : CapRect g.ty ((e - b) :: ds) cv := by
        obtain ⟨pat, hp⟩ := plain_of_values hg hd hone hroom hv
        unfold getSliceCap at hcap
        rw [if_neg (by omega)] at hcap
        have hchunks : g.nChunks b e = ((e - b : Nat) : Int) := by
          unfold Getter.nChunks
          rw [hd]
          simp only
          split
          · rename_i hd; omega
          · rw [show ((e : Int) - (b : Int)) = ((e - b : Nat) : Int) by omega]
            exact w64_nat (by omega)
        simp only [hchunks] at hcap
        have hle : (e - b) * prod ds ≤ D * prod ds := Nat.mul_le_mul_right _ (by omega)
        have hsl : w64 (((e - b : Nat) : Int) * g.chunkSize)
            = (((e - b) * prod ds : Nat) : Int) := by
          by_cases hD : D = 0
          · rw [hc0 hD, Int.mul_zero, w64_zero]
            have : e - b = 0 := by omega
            rw [this]; simp
          · rw [hc hD, ← Int.natCast_mul, w64_nat (by omega)]
        rw [hsl] at hcap
        rw [Res.bind_eq_ok] at hcap
        obtain ⟨bts, _, hconv⟩ := hcap
        simp only [Getter.sliceDims, hd, Int.toNat_natCast] at hconv
        rw [toU64_nat (by omega)] at hconv
        exact convertCap_rect hconv (by rw [decodeElems_length]; rfl) hpos
          (by simp only [prod]; omega)
      have hrange : ((0 : Int), w64 ((e : Int) - (b : Int))) ::
          (rs.map (fun r => (r.1 : Int))).zip (rs.map (fun r => (r.2 : Int)))
          = intRanges ((0, e - b) :: rs) := by
        rw [show ((e : Int) - (b : Int)) = ((e - b : Nat) : Int) by omega, w64_nat (by omega)]
        simp only [intRanges, List.map_cons, List.cons.injEq]
        constructor
        · rfl
        · rw [List.zip_map']
      rw [hrange]
      have hbox : InBox ((0, e - b) :: rs) ((e - b) :: ds) := ⟨by omega, by omega, hin⟩
      rw [sliceRecursive_ok hcr hbox (by simp) (by
        intro hch
        cases hdn : ds with
        | nil =>
          subst hdn
          cases rs with
          | nil => simp
          | cons _ _ => simp [InBox] at hin
        | cons d1 ds' =>
          have hrs : rs ≠ [] := by
            intro h0; subst h0; rw [hdn] at hin; simp [InBox] at hin
          have := hstr hch (by rw [hdn]; simp)
          rw [hdn] at this
          rw [List.getLast?_cons_cons (a := e - b), ← this]
          cases rs with
          | nil => exact absurd rfl hrs
          | cons r' rs' => simp only [List.getLast?_cons_cons])]
      rw [hslice, boxSlice_shift]

-- a box that is proper in every dimension
example : runSliceMD 100 (file3 1 2 2 2 [1, 2, 3, 4, 5, 6, 7, 8]) "v" [1, 0, 1] [2, 2, 2]
    = .ok (boxSlice [(1, 2), (0, 2), (1, 2)]
      (.slice (.slice (.slice (.num .i8)))
        [.slice (.slice (.num .i8)) [.slice (.num .i8) [.num .i8 1, .num .i8 2],
            .slice (.num .i8) [.num .i8 3, .num .i8 4]],
         .slice (.slice (.num .i8)) [.slice (.num .i8) [.num .i8 5, .num .i8 6],
            .slice (.num .i8) [.num .i8 7, .num .i8 8]]])) := by decide +kernel

example : ∃ h g v, openCdf 100 (file3 1 2 2 2 [1, 2, 3, 4, 5, 6, 7, 8]) = .ok h ∧
    getVarCommon h (ascii "v") = .ok g ∧
    g.dimLengths = [2, 2, 2] ∧ g.unlimited = false ∧
    g.vr.begin_ + 2 * prod [2, 2] * g.ty.size < 2 ^ 63 ∧
    g.vr.begin_ + 2 * prod [2, 2] * g.ty.size ≤ (file3 1 2 2 2 [1, 2, 3, 4, 5, 6, 7, 8]).length ∧
    InBox [(1, 2), (0, 2), (1, 2)] [2, 2, 2] ∧ g.ty ≠ .char ∧
    values 100 h (file3 1 2 2 2 [1, 2, 3, 4, 5, 6, 7, 8]) g = .ok v := by
  obtain ⟨h, g, h1, h2, h3⟩ := witness 100 (file3 1 2 2 2 [1, 2, 3, 4, 5, 6, 7, 8]) "v" (fun h g =>
    decide (g.dimLengths = [2, 2, 2] ∧ g.unlimited = false ∧
    g.vr.begin_ + 2 * prod [2, 2] * g.ty.size < 2 ^ 63 ∧
    g.vr.begin_ + 2 * prod [2, 2] * g.ty.size
      ≤ (file3 1 2 2 2 [1, 2, 3, 4, 5, 6, 7, 8]).length ∧ g.ty ≠ .char ∧
    values 100 h (file3 1 2 2 2 [1, 2, 3, 4, 5, 6, 7, 8]) g = .ok (.slice (.slice (.slice (.num .i8)))
        [.slice (.slice (.num .i8)) [.slice (.num .i8) [.num .i8 1, .num .i8 2],
            .slice (.num .i8) [.num .i8 3, .num .i8 4]],
         .slice (.slice (.num .i8)) [.slice (.num .i8) [.num .i8 5, .num .i8 6],
            .slice (.num .i8) [.num .i8 7, .num .i8 8]]]))) (by decide +kernel)
  have h3 := of_decide_eq_true h3
  exact ⟨h, g, _, h1, h2, h3.1, h3.2.1, h3.2.2.1, h3.2.2.2.1, by simp [InBox], h3.2.2.2.2.1,
    h3.2.2.2.2.2⟩

/-- **C10, negation.** The string dimension of a character array of rank two or more is not cut:
the box `[0:1, 0:1, 0:1]` of a 2 x 2 array of strings of two characters has a whole string. -/
theorem C10_negation : ∃ file xs,
    runValues 100 file "v" = .ok (.slice (.slice .str) xs) ∧
    runSliceMD 100 file "v" [0, 0, 0] [1, 1, 1]
      = .ok (.slice (.slice .str) [.slice .str [.str (ascii "ab")]]) ∧
    boxSlice [(0, 1), (0, 1), (0, 1)] (.slice (.slice .str) xs)
      = .slice (.slice .str) [.slice .str [.str (ascii "a")]] :=
  ⟨file3 2 2 2 2 (ascii "abcdefgh"), [.slice .str [.str (ascii "ab"), .str (ascii "cd")],
    .slice .str [.str (ascii "ef"), .str (ascii "gh")]], by decide +kernel⟩

/-! ### C12 -/

/-- **C12** (partial). In an accepted file, the first `e` records of a record variable - for
`e = numRecs` all of `Values()` - are the records at `begin + i * recSize`, in order, whenever they
lie inside the file.

What is missing, and false of the code: a slice that does not start at record 0 panics
(`C09_negation_record`). -/
theorem C12_records_partial {ma : Nat} {file : Bytes} {h : Hdr} {name : Bytes} {g : Getter}
    (ho : openCdf ma file = .ok h) (hg : getVarCommon h name = .ok g)
    (hu : g.unlimited = true) (hs : h.special = false) :
    ∃ ds, g.dimLengths = h.numRecs :: ds ∧ ∀ e ≤ h.numRecs,
      (∀ i, i < e → g.vr.begin_ + i * h.recSize + prod ds * g.ty.size ≤ file.length) →
      g.vr.begin_ + h.numRecs * h.recSize < 2 ^ 63 → h.recSize < 2 ^ 63 →
      h.numRecs * prod ds * g.ty.size < 2 ^ 63 → prod ds * g.ty.size < 2 ^ 63 →
      h.numRecs * 16 ≤ ma → h.numRecs * prod ds * g.ty.size ≤ ma →
      (e = 0 → ds.length ≤ 1 ∨ g.ty ≠ .char) →
      ∃ v, getSlice ma h file g 0 e = .ok v ∧
        Stored g.ty.kind (e :: ds) ((List.range e).flatMap (fun i =>
          (file.drop (g.vr.begin_ + i * h.recSize)).take (prod ds * g.ty.size))) v ∧
        (e = h.numRecs → values ma h file g = .ok v) := by
  obtain ⟨ds, hd, hpos, hvs⟩ := record_dims ho hg hu
  refine ⟨ds, hd, ?_⟩
  intro e he hin hoff hrec hsize hsz1 ha ha2 hz
  have hsz := NcType.size_pos g.ty
  obtain ⟨_, hc, hc0, hl, _, _⟩ := getVarCommon_dims hg hd (by
    have : h.numRecs * prod ds ≤ h.numRecs * prod ds * g.ty.size := Nat.le_mul_of_pos_right _ hsz
    omega)
  have := getSlice_records hu hs hd hpos hc hc0 (hvs hsz1) e he hin hoff hrec hsize ha ha2 hz
  refine ⟨_, this, ?_, ?_⟩
  · have hlen : ((List.range e).flatMap (fun i =>
        (file.drop (g.vr.begin_ + i * h.recSize)).take (prod ds * g.ty.size))).length
        = prod (e :: ds) * g.ty.size := by
      rw [flatMap_length_const _ _ (prod ds * g.ty.size)]
      · simp [prod, Nat.mul_assoc]
      · intro i hi
        have := hin i (List.mem_range.mp hi)
        rw [List.length_take, List.length_drop]; omega
    exact nestV_stored g.ty (e :: ds) _ (by simp) hlen
  · intro heq
    unfold values
    rw [hl, ← heq]
    exact this

/-- **C12**, the size of a record. The variables of an accepted file stand in its header one after
the other, each ending with its stored size and its offset. With several record variables the record
size is the sum of their stored sizes rounded up to a multiple of four; with one it is its stored
size, unless its elements have one or two bytes (`special`: then the records follow each other
without padding and `Values()` reads them in one piece). -/
theorem C12_record_size {ma : Nat} {file : Bytes} {h : Hdr} (ho : openCdf ma file = .ok h) :
    ∃ (lead rest : Bytes) (es : List VarEntry),
      file = lead ++ es.flatMap (·.bytes h.version) ++ rest ∧
      h.listVariables = es.map (·.var.name) ∧ (∀ e ∈ es, h.vars.get e.var.name = some e.var) ∧
      ∀ rs, rs = es.filter (·.isRecord h.dims) →
        (h.special = true ↔ ∃ e, rs = [e] ∧ e.var.vType ∈ [1, 2, 3, 7, 8]) ∧
        ((rs.map (·.vsize)).sum + 3 < 2 ^ 64 →
          (2 ≤ rs.length → h.recSize = ((rs.map (·.vsize)).sum + 3) / 4 * 4) ∧
          (rs.length ≤ 1 → h.special = false → h.recSize = (rs.map (·.vsize)).sum)) := by
  have hver := (openCdf_inv ho).version
  unfold openCdf at ho
  cases hr : readHeader ma file with
  | err e => rw [hr] at ho; cases ho
  | panic => rw [hr] at ho; cases ho
  | ok r =>
    obtain ⟨h', s'⟩ := r
    rw [hr] at ho
    simp only [Res.ok.injEq] at ho
    subst ho
    unfold readHeader at hr
    obtain ⟨b, s1, h1, hr⟩ := P.bind_eq_ok hr
    split at hr
    · cases hr
    · simp only at hr
      split at hr
      · obtain ⟨nr, s2, h2, hr⟩ := P.bind_eq_ok hr
        obtain ⟨_, s3, h3, hr⟩ := P.bind_eq_ok hr
        unfold readLists at hr
        obtain ⟨nd, s4, h4, hr⟩ := P.bind_eq_ok hr
        obtain ⟨_, s5, h5, hr⟩ := P.bind_eq_ok hr
        obtain ⟨dims, s6, h6, hr⟩ := P.bind_eq_ok hr
        obtain ⟨attrs, s7, h7, hr⟩ := P.bind_eq_ok hr
        obtain ⟨nv, s8, h8, hr⟩ := P.bind_eq_ok hr
        obtain ⟨acc, s9, h9, hr⟩ := P.bind_eq_ok hr
        obtain ⟨⟨rsz, sp⟩, s10, h10, hr⟩ := P.bind_eq_ok hr
        have := P.pure_eq_ok hr
        simp only [Prod.mk.injEq] at this
        obtain ⟨rfl, _⟩ := this
        simp only at hver
        obtain ⟨es, e1, e2, e3, _, e5, e6⟩ := readVars_bytes hver h9 rfl (by decide)
        have q1 := rdN_bytes h1
        obtain ⟨p2, q2⟩ := (good_readNumber _).prefix h2
        have q3 := (P.assert_eq_ok h3).2
        obtain ⟨p4, q4⟩ := (good_getNElems _ _).prefix h4
        have q5 := (P.assert_eq_ok h5).2
        obtain ⟨p6, q6⟩ := (Good.repeat (good_getDim ma _) _).prefix h6
        obtain ⟨p7, q7⟩ := (good_getAttrList ma _).prefix h7
        obtain ⟨p8, q8⟩ := (good_getNElems _ _).prefix h8
        obtain ⟨hf, q10⟩ := P.lift_eq_ok h10
        simp only at q3 q5
        refine ⟨b ++ p2 ++ p4 ++ p6 ++ p7 ++ p8, s9, es, ?_, ?_, e3, ?_⟩
        · rw [q1, q2, ← q3, q4, ← q5, q6, q7, q8, e1]
          simp only [List.append_assoc]
        · simpa [Hdr.listVariables, OMap.visibleKeys, OMap.empty] using e2
        · intro rs hrs
          simp only [List.nil_append, Nat.zero_add] at e5 e6
          simp only at hf ⊢
          rw [← hrs] at e5 e6
          unfold finishRecs at hf
          rw [e6] at hf
          have hsum : vsizes rs = (rs.map (·.vsize)).sum := rfl
          rw [← hsum]
          rcases rs with _ | ⟨e, _ | ⟨e', es'⟩⟩
          · simp only [List.map_nil] at hf
            split at hf
            · simp only [Res.ok.injEq, Prod.mk.injEq] at hf
              obtain ⟨rfl, rfl⟩ := hf
              simp [vsizes]
            · cases hf
          · simp only [List.map_cons, List.map_nil] at hf
            have hmem : ∀ c : Nat, c ∈ ([1, 2, 3, 7, 8] : List Nat) ↔
                (NcType.ofCode c = some .byte ∨ NcType.ofCode c = some .ubyte ∨
                 NcType.ofCode c = some .char ∨ NcType.ofCode c = some .short ∨
                 NcType.ofCode c = some .ushort) := by
              intro c
              by_cases hc : c < 12
              · have : ∀ c : Fin 12, c.val ∈ ([1, 2, 3, 7, 8] : List Nat) ↔
                  (NcType.ofCode c.val = some .byte ∨ NcType.ofCode c.val = some .ubyte ∨
                   NcType.ofCode c.val = some .char ∨ NcType.ofCode c.val = some .short ∨
                   NcType.ofCode c.val = some .ushort) := by decide
                exact this ⟨c, hc⟩
              · have h1 : NcType.ofCode c = none := by
                  unfold NcType.ofCode
                  split <;> first | rfl | omega
                rw [h1]
                simp
                omega
            have hiff : (∃ e', [e] = [e'] ∧ e'.var.vType ∈ ([1, 2, 3, 7, 8] : List Nat)) ↔
                e.var.vType ∈ ([1, 2, 3, 7, 8] : List Nat) := by
              constructor
              · rintro ⟨e', h1, h2⟩
                simp only [List.cons.injEq, and_true] at h1
                rwa [h1]
              · intro h; exact ⟨e, rfl, h⟩
            rw [hiff, hmem]
            split at hf <;> rename_i hc <;>
              simp only [Res.ok.injEq, Prod.mk.injEq] at hf <;> obtain ⟨rfl, rfl⟩ := hf
            · simp [hc]
            · simp [hc]
            · simp [hc]
            · simp [hc]
            · simp [hc]
            · refine ⟨?_, ?_⟩
              · simp only [Bool.false_eq_true, false_iff]
                simp only [not_or]
                refine ⟨?_, ?_, ?_, ?_, ?_⟩ <;> assumption
              · intro hlt
                refine ⟨by simp, fun _ _ => ?_⟩
                rw [e5, Nat.mod_eq_of_lt (by omega)]
          · simp only [List.map_cons, Res.ok.injEq, Prod.mk.injEq] at hf
            obtain ⟨rfl, rfl⟩ := hf
            refine ⟨by simp, ?_⟩
            intro hlt
            refine ⟨fun _ => ?_, by simp⟩
            rw [e5]
            unfold roundInt32
            rw [Nat.mod_eq_of_lt (a := vsizes _) (by omega), Nat.mod_eq_of_lt (by omega)]
      · cases hr

/-- Two record variables, of one `int` and of one `short`, and two records. -/
def recFile : Bytes :=
  ascii "CDF" ++ [1] ++ beEnc 4 2 ++
  beEnc 4 10 ++ beEnc 4 1 ++ beEnc 4 1 ++ ascii "t" ++ [0, 0, 0] ++ beEnc 4 0 ++
  beEnc 4 0 ++ beEnc 4 0 ++
  beEnc 4 11 ++ beEnc 4 2 ++
  beEnc 4 1 ++ ascii "a" ++ [0, 0, 0] ++ beEnc 4 1 ++ beEnc 4 0 ++ beEnc 4 0 ++ beEnc 4 0 ++
    beEnc 4 4 ++ beEnc 4 4 ++ beEnc 4 116 ++
  beEnc 4 1 ++ ascii "b" ++ [0, 0, 0] ++ beEnc 4 1 ++ beEnc 4 0 ++ beEnc 4 0 ++ beEnc 4 0 ++
    beEnc 4 3 ++ beEnc 4 4 ++ beEnc 4 120 ++
  beEnc 4 7 ++ beEnc 2 8 ++ [0, 0] ++ beEnc 4 9 ++ beEnc 2 10 ++ [0, 0]

-- two record variables: a record has 4 + 4 bytes, and the second variable is found in both records
example : (openCdf 100 recFile).map (fun h => (h.recSize, h.special)) = .ok (8, false) ∧
    runValues 100 recFile "b" = .ok (.slice (.num .i16) [.num .i16 8, .num .i16 10]) := by
  decide +kernel

-- a file with a record variable that meets the hypotheses
example : ∃ h g, openCdf 100 (fileInt 0) = .ok h ∧ getVarCommon h (ascii "v") = .ok g ∧
    g.unlimited = true ∧ h.special = false ∧ h.numRecs = 2 ∧
    (∀ i ∈ List.range 2, g.vr.begin_ + i * h.recSize + prod [] * g.ty.size ≤ (fileInt 0).length) := by
  obtain ⟨h, g, h1, h2, h3⟩ := witness 100 (fileInt 0) "v" (fun h g =>
    decide (g.unlimited = true ∧ h.special = false ∧ h.numRecs = 2 ∧
      (∀ i ∈ List.range 2, g.vr.begin_ + i * h.recSize + prod [] * g.ty.size ≤ (fileInt 0).length)))
    (by decide +kernel)
  have h3 := of_decide_eq_true h3
  exact ⟨h, g, h1, h2, h3⟩

/-! ### C13 -/

/-- The bytes of a variable stored in one piece that begins at `begin_` and has `n` elements of
`size` bytes: those that are in the file, and the fill value for the elements that are not. -/
def storedOrFill (file : Bytes) (begin_ n size : Nat) (fb : Bytes) : Bytes :=
  let there := (file.drop begin_).take (n * size)
  there ++ (List.replicate (n - there.length / size) fb).flatten

/-- **C13** (partial). `Values()` of a variable stored in one piece consists of the elements in the
file followed by the fill value of its type (or its `_FillValue`).

What is missing: record variables (a record that is not in the file is an error, or is taken from
the next record, see `C13_negation_record`), and a file that ends in the middle of an element,
whose bytes are mixed with fill bytes (`C09_negation_truncated`). -/
theorem C13_fill_partial {ma : Nat} {h : Hdr} {file name : Bytes} {g : Getter} {D : Nat}
    {ds : List Nat} {v : GoVal}
    (ho : openCdf ma file = .ok h) (hg : getVarCommon h name = .ok g) (hd : g.dimLengths = D :: ds)
    (hone : g.unlimited = false ∨ h.special = true)
    (hroom : g.vr.begin_ + D * prod ds * g.ty.size < 2 ^ 63)
    (hwhole : g.vr.begin_ + D * prod ds * g.ty.size ≤ file.length ∨
      g.ty.size ∣ file.length - g.vr.begin_)
    (hempty : D = 0 → ds.length ≤ 1 ∨ g.ty ≠ .char)
    (hv : values ma h file g = .ok v) :
    ∃ fb, FillOf g.ty.kind (g.vr.attrs.get (ascii "_FillValue")) fb ∧
      Stored g.ty.kind (D :: ds)
        (storedOrFill file g.vr.begin_ (D * prod ds) g.ty.size fb) v := by
  obtain ⟨pat, hp⟩ := plain_of_values hg hd hone hroom hv
  have hpl := fillPattern_length hp.fill
  have hsz := NcType.size_pos g.ty
  have : D * prod ds ≤ D * prod ds * g.ty.size := Nat.le_mul_of_pos_right _ hsz
  obtain ⟨_, _, _, hlen, hvar, _⟩ := getVarCommon_dims hg hd (by omega)
  have hb := ((openCdf_inv ho).vars _ _ hvar).2.bits
  refine ⟨pat, fillPattern_spec hp.fill (by
    intro v k bits hget hv
    rcases hv with rfl | ⟨t, rfl⟩
    · exact (hb _ _ hget).1 _ _ rfl
    · exact (hb _ _ hget).2 _ _ _ _ rfl (by simp)), ?_⟩
  have hall := getSlice_plain (file := file) hp 0 D (by omega) (by omega) (fun h0 => hempty h0)
  unfold values at hv
  rw [hlen, show (0 : Int) = ((0 : Nat) : Int) from rfl, hall] at hv
  simp only [Res.ok.injEq, Nat.sub_zero, Nat.zero_mul, Nat.add_zero] at hv
  rw [← hv]
  have hfill : storedOrFill file g.vr.begin_ (D * prod ds) g.ty.size pat
      = filled (file.drop g.vr.begin_) pat (D * prod ds * g.ty.size) := by
    unfold storedOrFill filled
    simp only
    congr 1
    rw [← fillStream_replicate, hpl]
    congr 1
    rw [Nat.sub_mul]
    congr 1
    rw [Nat.div_mul_cancel]
    rw [List.length_take, List.length_drop]
    rcases Nat.le_total (D * prod ds * g.ty.size) (file.length - g.vr.begin_) with hle | hle
    · rw [Nat.min_eq_left hle]; exact Nat.dvd_mul_left _ _
    · rw [Nat.min_eq_right hle]
      rcases hwhole with h' | h'
      · have : file.length - g.vr.begin_ = D * prod ds * g.ty.size := by omega
        rw [this]; exact Nat.dvd_mul_left _ _
      · exact h'
  rw [hfill]
  exact nestV_stored g.ty (D :: ds) _ (by simp) (by rw [filled_length]; rfl)

-- one of two elements is in the file
example : runValues 100 ((fileInt 2).take 84) "v"
    = .ok (.slice (.num .i32) [.num .i32 10, .num .i32 0x80000001]) := by decide +kernel

example : ∃ h g v, openCdf 100 ((fileInt 2).take 84) = .ok h ∧
    getVarCommon h (ascii "v") = .ok g ∧ g.dimLengths = [2] ∧ g.unlimited = false ∧
    g.vr.begin_ + 2 * prod [] * g.ty.size < 2 ^ 63 ∧
    g.ty.size ∣ ((fileInt 2).take 84).length - g.vr.begin_ ∧
    g.vr.attrs.get (ascii "_FillValue") = none ∧
    values 100 h ((fileInt 2).take 84) g = .ok v := by
  obtain ⟨h, g, h1, h2, h3⟩ := witness 100 ((fileInt 2).take 84) "v" (fun h g =>
    decide (g.dimLengths = [2] ∧ g.unlimited = false ∧
    g.vr.begin_ + 2 * prod [] * g.ty.size < 2 ^ 63 ∧
    g.ty.size ∣ ((fileInt 2).take 84).length - g.vr.begin_ ∧
    g.vr.attrs.get (ascii "_FillValue") = none ∧
    values 100 h ((fileInt 2).take 84) g
      = .ok (.slice (.num .i32) [.num .i32 10, .num .i32 0x80000001]))) (by decide +kernel)
  have h3 := of_decide_eq_true h3
  exact ⟨h, g, _, h1, h2, h3⟩

/-- **C13, negation.** A record variable with a record that is missing from the file is an error,
not fill. -/
theorem C13_negation_record : ∃ file, runValues 100 file "v" = .err .eof :=
  ⟨(fileInt 0).take 84, by decide +kernel⟩

end Verif.Cdf
