import Verif.Lemmas.CdfData
import Verif.Lemmas.CdfSlice
/-!
The header of a CDF file as a whole: what the writer emits and what the reader makes of it.
-/
namespace Verif.Cdf

/-! ### Dimensions -/

/-- A dimension entry. -/
def encDim (version : Nat) (d : Dim) : Bytes := encName version d.name ++ encNum version d.length

/-- The list of dimensions. -/
def encDims (version : Nat) (ds : List Dim) : Bytes :=
  if ds.length = 0 then beEnc 4 0 ++ encNum version 0
  else beEnc 4 fieldDimension ++ (encNum version ds.length ++ ds.flatMap (encDim version))

theorem encDim_mod (version : Nat) (d : Dim) : (encDim version d).length % 4 = 0 := by
  have h1 := encName_mod version d.name
  have h2 := encNum_mod version d.length
  simp only [encDim, List.length_append]; omega

theorem encDims_mod (version : Nat) (ds : List Dim) : (encDims version ds).length % 4 = 0 := by
  have h0 := encNum_mod version 0
  have h1 := encNum_mod version ds.length
  have h2 := flatMap_mod ds (encDim version) (fun d _ => encDim_mod version d)
  unfold encDims
  split <;> simp only [List.length_append, beEnc_length] <;> omega

theorem writeDims_eq (version : Nat) (m : GoMap Nat) (names : List Bytes) (out : Bytes)
    (ho : out.length % 4 = 0) :
    writeDims version m names out
      = out ++ names.flatMap (fun n => encDim version ⟨n, (m.get n).getD 0⟩) := by
  induction names generalizing out with
  | nil => simp [writeDims]
  | cons n names ih =>
    have hm := encDim_mod version ⟨n, (m.get n).getD 0⟩
    simp only [writeDims]
    rw [writeName_eq _ _ _ ho, writeNumber_eq, ih]
    · simp [encDim]
    · simp only [encDim, List.length_append] at hm
      simp only [List.length_append]; omega

theorem mem_flatMap_length {α : Type} (f : α → Bytes) {xs : List α} {x : α} (hx : x ∈ xs) :
    (f x).length ≤ (xs.flatMap f).length := by
  obtain ⟨a, b, hab⟩ := List.append_of_mem hx
  rw [hab]
  simp only [List.flatMap_append, List.flatMap_cons, List.length_append]
  omega

theorem reads_getDim {ma version : Nat} {d : Dim} (hn : NumOK version d.name.length)
    (hs : d.name.length < 2 ^ 63) (h0 : NulFree d.name) (hl : NumOK version d.length)
    (hma : (encDim version d).length ≤ ma) : Reads (getDim ma version) (encDim version d) d := by
  unfold getDim encDim
  simp only [encDim, List.length_append] at hma
  refine Reads.bind (reads_readName hn hs (by omega) h0) ?_
  exact Reads.bind_pure (f := fun len => (⟨d.name, len⟩ : Dim)) (reads_readNumber hl)

/-- Dimensions that a file can hold. -/
structure DimOK (version : Nat) (d : Dim) : Prop where
  nul : NulFree d.name
  name : NumOK version d.name.length
  name63 : d.name.length < 2 ^ 63
  len : NumOK version d.length

theorem reads_dims {ma version : Nat} {ds : List Dim} (h : ∀ d ∈ ds, DimOK version d)
    (hn : NumOK version ds.length) (hma : (encDims version ds).length ≤ ma) :
    ∃ e1 e2, encDims version ds = e1 ++ e2 ∧
      Reads (getNElems version fieldDimension) e1 ds.length ∧
      Reads (P.repeat (getDim ma version) ds.length) e2 ds := by
  unfold encDims at hma ⊢
  split
  · rename_i hz
    have hz' : ds = [] := List.length_eq_zero_iff.mp hz
    subst hz'
    exact ⟨_, [], (List.append_nil _).symm, reads_getNElems_absent, Reads.pure []⟩
  · rename_i hz
    rw [if_neg hz] at hma
    simp only [List.length_append] at hma
    refine ⟨beEnc 4 fieldDimension ++ encNum version ds.length, ds.flatMap (encDim version),
      by simp, reads_getNElems (by decide) (by decide) hn, ?_⟩
    have := reads_repeat (p := getDim ma version) (encs := ds.map (fun d => (encDim version d, d)))
      (by
        intro x hx
        obtain ⟨d, hd, rfl⟩ := List.mem_map.mp hx
        have hl := mem_flatMap_length (encDim version) hd
        have := h d hd
        exact reads_getDim this.name this.name63 this.nul this.len (by omega))
    simpa [Function.comp_def, List.flatMap_map] using this

/-! ### Variables -/

/-- A variable entry. -/
def encVar (version : Nat) (sv : SavedVar) (ids : List Nat) (vsize off : Nat) : Bytes :=
  encName version sv.name ++ (encNum version ids.length ++ (ids.flatMap (encNum version) ++
    (encAttrs version sv.attrs ++ (beEnc 4 sv.ty.code ++ (encNum version vsize ++ beEnc 8 off)))))

theorem encVar_mod (version : Nat) (sv : SavedVar) (ids : List Nat) (vsize off : Nat) :
    (encVar version sv ids vsize off).length % 4 = 0 := by
  have h1 := encName_mod version sv.name
  have h2 := encNum_mod version ids.length
  have h3 := flatMap_mod ids (encNum version) (fun n _ => encNum_mod version n)
  have h4 := encAttrs_mod version sv.attrs
  have h5 := encNum_mod version vsize
  simp only [encVar, List.length_append, beEnc_length]; omega

/-- The ids of the dimensions of a variable. -/
def idsOf (dimIds : GoMap Nat) (sv : SavedVar) : List Nat :=
  (sv.dimNames.take sv.dimLengths.length).map (fun n => (dimIds.get n).getD 0)

theorem writeDimIds_eq (version : Nat) (dimIds : GoMap Nat) (names : List Bytes) (lens : List Nat)
    (i : Nat) (out : Bytes) (h : i + lens.length ≤ names.length) :
    writeDimIds version dimIds names lens i out = .ok (out ++
      ((names.drop i).take lens.length).flatMap
        (fun n => encNum version ((dimIds.get n).getD 0))) := by
  induction lens generalizing i out with
  | nil => simp [writeDimIds]
  | cons l lens ih =>
    simp only [List.length_cons] at h
    have hi : i < names.length := by omega
    simp only [writeDimIds, List.getElem?_eq_getElem hi]
    rw [ih (i + 1) _ (by omega), writeNumber_eq, List.drop_eq_getElem_cons hi, List.length_cons,
      List.take_succ_cons, List.flatMap_cons, List.append_assoc]

theorem vsizeLoop_eq (ds : List Nat) (i acc : Nat) (h : ∀ d ∈ ds, 0 < d) :
    vsizeLoop ds i acc = .ok (acc * prod ds) := by
  induction ds generalizing i acc with
  | nil => simp [vsizeLoop, prod]
  | cons d ds ih =>
    have hd := h d (by simp)
    simp only [vsizeLoop, prod]
    rw [if_pos (by omega), ih _ _ (fun x hx => h x (by simp [hx])), Nat.mul_assoc]

/-- The padded size of the data of a variable. -/
def sizeOf' (sv : SavedVar) : Nat := roundInt64 (prod sv.dimLengths * sv.ty.size)

theorem vsizeOf_eq (sv : SavedVar) (h : ∀ d ∈ sv.dimLengths, 0 < d) :
    vsizeOf sv = .ok (sizeOf' sv) := by
  unfold vsizeOf sizeOf' roundInt64
  rw [vsizeLoop_eq _ _ _ h]
  simp only [Res.bind_ok, Res.pure_eq]
  rw [Nat.mul_comm sv.ty.size]
  congr 1
  omega

theorem writeVar_eq {version : Nat} {dimIds : GoMap Nat} {sv : SavedVar} {off : Nat} {out : Bytes}
    (ho : out.length % 4 = 0) (hlen : sv.dimLengths.length ≤ sv.dimNames.length)
    (hpos : ∀ d ∈ sv.dimLengths, 0 < d) (ha : AttrsVals sv.attrs) :
    writeVar version dimIds sv off out
      = .ok (out ++ encVar version sv (idsOf dimIds sv) (sizeOf' sv) off, sizeOf' sv) := by
  unfold writeVar
  simp only [writeName_eq _ _ _ ho, writeNumber_eq]
  rw [writeDimIds_eq _ _ _ _ _ _ (by omega)]
  simp only [Res.bind_ok, List.drop_zero]
  have h1 := encName_mod version sv.name
  have h2 := encNum_mod version sv.dimLengths.length
  have h3 := flatMap_mod (sv.dimNames.take sv.dimLengths.length)
    (fun n => encNum version ((dimIds.get n).getD 0)) (fun n _ => encNum_mod _ _)
  rw [writeAttributes_eq ha (by simp only [List.length_append]; omega)]
  simp only [Res.bind_ok, vsizeOf_eq sv hpos, Res.pure_eq, write32, write64]
  have hl : (idsOf dimIds sv).length = sv.dimLengths.length := by
    simp only [idsOf, List.length_map, List.length_take]; omega
  simp only [encVar, hl]
  simp only [idsOf, List.flatMap_map, List.append_assoc]

theorem computeVarSize_eq {version : Nat} (hv : version = 2 ∨ version = 5) {dimIds : GoMap Nat}
    {sv : SavedVar} (off : Nat) (hlen : sv.dimLengths.length ≤ sv.dimNames.length)
    (ha : AttrsVals sv.attrs) :
    computeVarSize version sv
      = .ok (encVar version sv (idsOf dimIds sv) (sizeOf' sv) off).length := by
  unfold computeVarSize
  rw [computeAttributeSize_eq hv ha]
  simp only [Res.bind_ok, Res.pure_eq]
  have hl : (idsOf dimIds sv).length = sv.dimLengths.length := by
    simp only [idsOf, List.length_map, List.length_take]; omega
  have hf := flatMap_length_const (idsOf dimIds sv) (encNum version) (lengthSize version)
    (fun n _ => lengthSize_eq hv n)
  simp only [encVar, List.length_append, encName_length hv, lengthSize_eq hv, hf, beEnc_length, hl]
  rcases hv with rfl | rfl
  · simp [lengthSize]; omega
  · simp [lengthSize]; omega

/-- The variables with the offsets of their data. -/
def layout : List SavedVar → Nat → List (SavedVar × Nat)
  | [], _ => []
  | sv :: svs, off => (sv, off) :: layout svs (off + sizeOf' sv)

/-- What is needed of a variable for its header entry. -/
structure HeadOK (sv : SavedVar) : Prop where
  dims : sv.dimLengths.length ≤ sv.dimNames.length
  pos : ∀ d ∈ sv.dimLengths, 0 < d
  attrs : AttrsVals sv.attrs

/-- All variable entries. -/
def encVars (version : Nat) (dimIds : GoMap Nat) (l : List (SavedVar × Nat)) : Bytes :=
  l.flatMap (fun x => encVar version x.1 (idsOf dimIds x.1) (sizeOf' x.1) x.2)

theorem writeVars_eq {version : Nat} {dimIds : GoMap Nat} (svs : List SavedVar) (off : Nat)
    (out : Bytes) (ho : out.length % 4 = 0) (h : ∀ sv ∈ svs, HeadOK sv) :
    writeVars version dimIds svs off out = .ok (out ++ encVars version dimIds (layout svs off)) := by
  induction svs generalizing off out with
  | nil => simp [writeVars, layout, encVars]
  | cons sv svs ih =>
    have hs := h sv (by simp)
    have hm := encVar_mod version sv (idsOf dimIds sv) (sizeOf' sv) off
    rw [writeVars, writeVar_eq ho hs.dims hs.pos hs.attrs, Res.bind_ok]
    simp only
    rw [ih _ _ (by simp only [List.length_append]; omega) (fun x hx => h x (by simp [hx]))]
    simp [layout, encVars]

theorem encVars_length {version : Nat} (dimIds : GoMap Nat) (svs : List SavedVar)
    (off off' : Nat) : (encVars version dimIds (layout svs off)).length
      = (encVars version dimIds (layout svs off')).length := by
  induction svs generalizing off off' with
  | nil => rfl
  | cons sv svs ih =>
    simp only [layout, encVars, List.flatMap_cons, List.length_append]
    have := ih (off + sizeOf' sv) (off' + sizeOf' sv)
    simp only [encVars] at this
    rw [this]
    simp [encVar]

theorem computeVarSizes_eq {version : Nat} (hv : version = 2 ∨ version = 5) {dimIds : GoMap Nat}
    (svs : List SavedVar) (off acc : Nat) (h : ∀ sv ∈ svs, HeadOK sv) :
    computeVarSizes version svs acc
      = .ok (acc + (encVars version dimIds (layout svs off)).length) := by
  induction svs generalizing off acc with
  | nil => simp [computeVarSizes, layout, encVars]
  | cons sv svs ih =>
    have hs := h sv (by simp)
    rw [computeVarSizes, computeVarSize_eq hv (dimIds := dimIds) off hs.dims hs.attrs, Res.bind_ok,
      ih (off + sizeOf' sv) _ (fun x hx => h x (by simp [hx]))]
    simp only [layout, encVars, List.flatMap_cons, List.length_append]
    congr 1
    omega

/-! ### Data -/

/-- The bytes of the data of a variable, without padding. -/
def dataOf (sv : SavedVar) : Bytes :=
  match storeVal sv with
  | .ok b => b
  | _ => []

/-- The value of a variable can be stored, takes the room it should, and `v` is read back. -/
structure DataOK (sv : SavedVar) (v : GoVal) : Prop where
  ok : storeVal sv = .ok (dataOf sv)
  len : (dataOf sv).length = prod sv.dimLengths * sv.ty.size
  back : nestV sv.ty sv.dimLengths
    (decodeElems sv.ty.readKind (prod sv.dimLengths) (dataOf sv)) = v

/-- The bytes of the data of a variable, padded. -/
def dataPad (sv : SavedVar) : Bytes := dataOf sv ++ padding (dataOf sv).length

theorem dataPad_length {sv : SavedVar} {v : GoVal} (h : DataOK sv v) :
    (dataPad sv).length = sizeOf' sv := by
  simp only [dataPad, List.length_append, h.len, padding, List.length_replicate, sizeOf',
    roundInt64]
  omega

theorem sizeOf'_mod (sv : SavedVar) : sizeOf' sv % 4 = 0 := by
  unfold sizeOf' roundInt64; omega

theorem writeData_eq {sv : SavedVar} {v : GoVal} (h : DataOK sv v) {out : Bytes}
    (ho : out.length % 4 = 0) : writeData sv out = .ok (out ++ dataPad sv) := by
  unfold writeData
  rw [h.ok]
  simp only [Res.bind_ok, Res.pure_eq, writeBytes]
  split
  · rw [pad_append _ _ ho]; rfl
  · rename_i hp
    have hp' := NcType.padded_of_mod sv.ty (by simpa using hp)
    have hz : (dataOf sv).length % 4 = 0 := by
      rw [h.len, Nat.mul_mod, hp']; simp
    simp [dataPad, padding_zero _ hz]

theorem writeDatas_eq (svs : List SavedVar) (out : Bytes) (ho : out.length % 4 = 0)
    (h : ∀ sv ∈ svs, ∃ v, DataOK sv v) :
    writeDatas svs out = .ok (out ++ svs.flatMap dataPad) := by
  induction svs generalizing out with
  | nil => simp [writeDatas]
  | cons sv svs ih =>
    obtain ⟨v, hv⟩ := h sv (by simp)
    have hl := dataPad_length hv
    have hm := sizeOf'_mod sv
    rw [writeDatas, writeData_eq hv ho, Res.bind_ok,
      ih _ (by simp only [List.length_append]; omega) (fun x hx => h x (by simp [hx]))]
    simp

/-- The data of a variable is at its offset. -/
theorem layout_data (svs : List SavedVar) (off : Nat) (pre : Bytes) (hpre : pre.length = off)
    (h : ∀ sv ∈ svs, ∃ v, DataOK sv v) :
    ∀ x ∈ layout svs off, ∃ rest, (pre ++ svs.flatMap dataPad).drop x.2 = dataPad x.1 ++ rest ∧
      x.1 ∈ svs := by
  induction svs generalizing off pre with
  | nil => intro x hx; simp [layout] at hx
  | cons sv svs ih =>
    intro x hx
    simp only [layout, List.mem_cons] at hx
    rcases hx with rfl | hx
    · refine ⟨svs.flatMap dataPad, ?_, by simp⟩
      rw [← hpre]
      simp
    · obtain ⟨v, hv⟩ := h sv (by simp)
      have hl := dataPad_length hv
      obtain ⟨rest, h1, h2⟩ := ih (off + sizeOf' sv) (pre ++ dataPad sv)
        (by simp [hl, hpre]) (fun y hy => h y (by simp [hy])) x hx
      refine ⟨rest, ?_, by simp [h2]⟩
      rw [← h1]
      simp

end Verif.Cdf
