import Verif.Lemmas.CdfWhole
/-!
From a sound writer state to the file, and from the file back to the variables.
-/
namespace Verif.Cdf

/-- A variable of a sound writer state. -/
structure SvGood (cw : Writer) (sv : SavedVar) : Prop where
  name : NulFree sv.name
  dims : sv.dimLengths.length ≤ sv.dimNames.length
  reg : ∀ i (h : i < sv.dimLengths.length),
    cw.dimLengths.get (sv.dimNames[i]'(by omega)) = some sv.dimLengths[i]
  attrs : AttrsGood cw.version sv.attrs
  fill : ∀ om, sv.attrs = some om → ascii "_FillValue" ∉ om.visibleKeys
  v5 : sv.ty.isV5 = true → cw.version = 5

/-- A sound writer state. -/
structure WGood (cw : Writer) : Prop where
  version : cw.version = 2 ∨ cw.version = 5
  nodup : cw.dimNames.Nodup
  lens : GoMap.keys cw.dimLengths = cw.dimNames
  ids : ∀ i (h : i < cw.dimNames.length), cw.dimIds.get cw.dimNames[i] = some i
  next : cw.nextID = cw.dimNames.length
  nul : ∀ n ∈ cw.dimNames, NulFree n
  used : ∀ n ∈ cw.dimNames, ∃ sv ∈ cw.vars, n ∈ sv.dimNames.take sv.dimLengths.length
  vars : ∀ sv ∈ cw.vars, SvGood cw sv

/-- The dimensions of the file. -/
def dimsOf (cw : Writer) : List Dim :=
  cw.dimNames.map (fun n => ⟨n, (cw.dimLengths.get n).getD 0⟩)

/-- The file up to the list of variables. -/
def frontOf (cw : Writer) : Bytes :=
  ascii "CDF" ++ beEnc 1 cw.version ++ (encNum cw.version 0 ++ (encDims cw.version (dimsOf cw) ++
    encAttrs cw.version cw.globalAttrs))

/-- Tag and number of variables. -/
def varsTag (cw : Writer) : Bytes :=
  if cw.vars.length = 0 then beEnc 4 0 ++ encNum cw.version 0
  else beEnc 4 fieldVariable ++ encNum cw.version cw.vars.length

/-- Where the data begins. -/
def beginOf (cw : Writer) : Nat :=
  (frontOf cw ++ varsTag cw).length +
    (encVars cw.version cw.dimIds (layout cw.vars 0)).length

/-- The whole header. -/
def headerOf (cw : Writer) : Bytes :=
  frontOf cw ++ varsTag cw ++ encVars cw.version cw.dimIds (layout cw.vars (beginOf cw))

/-- The file. -/
def fileOf (cw : Writer) : Bytes := headerOf cw ++ cw.vars.flatMap dataPad

theorem headerOf_length (cw : Writer) : (headerOf cw).length = beginOf cw := by
  unfold headerOf beginOf
  rw [List.length_append, encVars_length _ _ _ 0]

theorem frontOf_mod (cw : Writer) : (frontOf cw).length % 4 = 0 := by
  have h1 := encNum_mod cw.version 0
  have h2 := encDims_mod cw.version (dimsOf cw)
  have h3 := encAttrs_mod cw.version cw.globalAttrs
  have h4 : (ascii "CDF").length = 3 := by decide
  simp only [frontOf, List.length_append, beEnc_length, h4]; omega

theorem varsTag_mod (cw : Writer) : (varsTag cw).length % 4 = 0 := by
  have h1 := encNum_mod cw.version 0
  have h2 := encNum_mod cw.version cw.vars.length
  unfold varsTag
  split <;> simp only [List.length_append, beEnc_length] <;> omega

theorem encVars_mod (version : Nat) (dimIds : GoMap Nat) (l : List (SavedVar × Nat)) :
    (encVars version dimIds l).length % 4 = 0 :=
  flatMap_mod _ _ (fun _ _ => encVar_mod _ _ _ _ _)

theorem writeFront_eq {cw : Writer} (h : WGood cw) :
    cw.writeFront = .ok (ascii "CDF" ++ beEnc 1 cw.version ++ (encNum cw.version 0 ++
      encDims cw.version (dimsOf cw))) := by
  have hl : cw.dimLengths.length = cw.dimNames.length := by
    have := congrArg List.length h.lens
    simpa [GoMap.keys] using this
  have hdl : (dimsOf cw).length = cw.dimNames.length := by simp [dimsOf]
  unfold Writer.writeFront
  simp only [write8, write32, writeNumber_eq, writeBytes, List.nil_append]
  unfold encDims
  rw [hdl, h.next, hl]
  by_cases hz : cw.dimNames.length = 0
  · simp [hz]
  · rw [if_pos (by omega), if_neg (by omega), if_neg hz]
    have h4 : (ascii "CDF").length = 3 := by decide
    rw [writeDims_eq]
    · rw [List.take_of_length_le (Nat.le_refl _)]
      simp [dimsOf, List.flatMap_map]
    · have h1 := encNum_mod cw.version 0
      have h2 := encNum_mod cw.version cw.dimNames.length
      simp only [List.length_append, beEnc_length, h4]; omega

theorem writeAll_eq {cw : Writer} (h : WGood cw)
    (hv5 : checkV5Attributes cw.version cw.globalAttrs = (cw.version, .ok ()))
    (hg : AttrsVals cw.globalAttrs) (hpos : ∀ sv ∈ cw.vars, ∀ d ∈ sv.dimLengths, 0 < d)
    (hd : ∀ sv ∈ cw.vars, ∃ v, DataOK sv v) : cw.writeAll = .ok (fileOf cw) := by
  unfold Writer.writeAll
  rw [writeFront_eq h, Res.bind_ok]
  unfold Writer.writeBack
  rw [hv5]
  simp only [Res.bind_ok]
  have hfm := frontOf_mod cw
  have hga := encAttrs_mod cw.version cw.globalAttrs
  have hhead : ∀ sv ∈ cw.vars, HeadOK sv := fun sv hs =>
    ⟨(h.vars sv hs).dims, hpos sv hs, (h.vars sv hs).attrs.vals⟩
  rw [writeAttributes_eq hg (by
    simp only [frontOf, List.length_append] at hfm
    simp only [List.length_append]; omega)]
  simp only [Res.bind_ok, write32, writeNumber_eq]
  have hf : ascii "CDF" ++ beEnc 1 cw.version ++ (encNum cw.version 0 ++
      encDims cw.version (dimsOf cw)) ++ encAttrs cw.version cw.globalAttrs = frontOf cw := by
    simp [frontOf]
  rw [hf]
  by_cases hz : cw.vars.length = 0
  · have hz' : cw.vars = [] := List.length_eq_zero_iff.mp hz
    rw [if_neg (by omega)]
    simp [fileOf, headerOf, varsTag, hz', layout, encVars]
  · rw [if_pos (by omega)]
    have ht : frontOf cw ++ beEnc 4 fieldVariable ++ encNum cw.version cw.vars.length
        = frontOf cw ++ varsTag cw := by simp [varsTag, hz]
    rw [ht, computeVarSizes_eq h.version (dimIds := cw.dimIds) _ 0 _ hhead, Res.bind_ok]
    have htm := varsTag_mod cw
    have hvm := encVars_mod cw.version cw.dimIds (layout cw.vars (beginOf cw))
    rw [← beginOf, writeVars_eq _ _ _ (by simp only [List.length_append]; omega) hhead, Res.bind_ok,
      writeDatas_eq _ _ (by simp only [List.length_append]; omega) hd]
    rfl

/-! ### Reading the file -/

theorem mem_layout {svs : List SavedVar} {off : Nat} {x : SavedVar × Nat}
    (h : x ∈ layout svs off) : x.1 ∈ svs := by
  induction svs generalizing off with
  | nil => simp [layout] at h
  | cons sv svs ih =>
    simp only [layout, List.mem_cons] at h
    rcases h with rfl | h
    · simp
    · simp [ih h]

theorem layout_map (svs : List SavedVar) (off : Nat) : (layout svs off).map (·.1) = svs := by
  induction svs generalizing off with
  | nil => rfl
  | cons sv svs ih => simp [layout, ih]

theorem layout_length (svs : List SavedVar) (off : Nat) : (layout svs off).length = svs.length := by
  have := congrArg List.length (layout_map svs off)
  simpa using this

/-- Limits of the format that the reader insists on, and the room the file must have. -/
structure Limits (ma : Nat) (cw : Writer) : Prop where
  size : SizeOK cw.version (fileOf cw).length
  ma : (fileOf cw).length ≤ ma
  dims : cw.dimNames.length ≤ 1024
  rank : ∀ sv ∈ cw.vars, sv.dimLengths.length ≤ 1024

theorem getElem?_dimsOf {cw : Writer} {n : Bytes} {i L : Nat} (h : WGood cw)
    (hl : cw.dimLengths.get n = some L) (hi : cw.dimIds.get n = some i) :
    (dimsOf cw)[i]? = some ⟨n, L⟩ := by
  have hm : n ∈ cw.dimNames := by
    rw [← h.lens, ← GoMap.get_isSome, hl]; rfl
  obtain ⟨j, hj, hjn⟩ := List.getElem_of_mem hm
  have := h.ids j hj
  rw [hjn, hi] at this
  have : i = j := by simpa using this
  subst this
  simp [dimsOf, List.getElem?_eq_getElem hj, hjn, hl]

theorem dimId_of_mem {cw : Writer} {n : Bytes} (h : WGood cw) (hm : n ∈ cw.dimNames) :
    ∃ i, i < cw.dimNames.length ∧ cw.dimIds.get n = some i := by
  obtain ⟨j, hj, hjn⟩ := List.getElem_of_mem hm
  exact ⟨j, hj, by rw [← hjn]; exact h.ids j hj⟩

/-- The ids of a variable resolve to its names and lengths. -/
theorem ids_resolve {cw : Writer} (h : WGood cw) {sv : SavedVar} (hs : SvGood cw sv)
    (i : Nat) (hi : i < sv.dimLengths.length) :
    ∃ id, (idsOf cw.dimIds sv)[i]? = some id ∧ id < cw.dimNames.length ∧
      (dimsOf cw)[id]? = some ⟨sv.dimNames[i]'(by have := hs.dims; omega), sv.dimLengths[i]⟩ := by
  have hd := hs.dims
  have hin : i < sv.dimNames.length := by omega
  have hl := hs.reg i hi
  have hm : sv.dimNames[i] ∈ cw.dimNames := by
    rw [← h.lens, ← GoMap.get_isSome, hl]; rfl
  obtain ⟨id, hid, hg⟩ := dimId_of_mem h hm
  refine ⟨id, ?_, hid, getElem?_dimsOf h hl hg⟩
  simp [idsOf, List.getElem?_take, hi, List.getElem?_eq_getElem hin, hg]

theorem idsOf_length {cw : Writer} {sv : SavedVar} (hs : SvGood cw sv) :
    (idsOf cw.dimIds sv).length = sv.dimLengths.length := by
  have := hs.dims
  simp only [idsOf, List.length_map, List.length_take]; omega

theorem ids_mem {cw : Writer} (h : WGood cw) {sv : SavedVar} (hs : SvGood cw sv) {id : Nat}
    (hid : id ∈ idsOf cw.dimIds sv) : ∃ i, ∃ hi : i < sv.dimLengths.length,
      id < cw.dimNames.length ∧
      (dimsOf cw)[id]? = some ⟨sv.dimNames[i]'(by have := hs.dims; omega), sv.dimLengths[i]⟩ := by
  obtain ⟨i, hi, he⟩ := List.getElem_of_mem hid
  rw [idsOf_length hs] at hi
  obtain ⟨id', h1, h2, h3⟩ := ids_resolve h hs i hi
  have : id' = id := by
    rw [List.getElem?_eq_getElem (by rw [idsOf_length hs]; exact hi), he] at h1
    simpa using h1.symm
  subst this
  exact ⟨i, hi, h2, h3⟩

theorem sizeOf'_le {cw : Writer} {sv : SavedVar} {v : GoVal} (hs : sv ∈ cw.vars)
    (hd : DataOK sv v) : sizeOf' sv ≤ (fileOf cw).length := by
  have h1 := mem_flatMap_length dataPad hs
  rw [dataPad_length hd] at h1
  simp only [fileOf, List.length_append]; omega

theorem prod_le_sizeOf' (sv : SavedVar) : prod sv.dimLengths * sv.ty.size ≤ sizeOf' sv := by
  unfold sizeOf' roundInt64; omega

theorem layout_off {svs : List SavedVar} {off : Nat} (hd : ∀ sv ∈ svs, ∃ v, DataOK sv v) :
    ∀ x ∈ layout svs off, x.2 + sizeOf' x.1 ≤ off + (svs.flatMap dataPad).length := by
  induction svs generalizing off with
  | nil => intro x hx; simp [layout] at hx
  | cons sv svs ih =>
    intro x hx
    obtain ⟨v, hv⟩ := hd sv (by simp)
    have hl := dataPad_length hv
    simp only [layout, List.mem_cons] at hx
    simp only [List.flatMap_cons, List.length_append, hl]
    rcases hx with rfl | hx
    · simp only; omega
    · have := ih (off := off + sizeOf' sv) (fun y hy => hd y (by simp [hy])) x hx
      omega

theorem entry_readable {ma : Nat} {cw : Writer} (h : WGood cw) (hl : Limits ma cw)
    (hpos : ∀ sv ∈ cw.vars, ∀ d ∈ sv.dimLengths, 0 < d)
    (hd : ∀ sv ∈ cw.vars, ∃ v, DataOK sv v) :
    ∀ x ∈ layout cw.vars (beginOf cw), EntryReadable cw.version (dimsOf cw) cw.dimIds x := by
  intro x hx
  have hm := mem_layout hx
  have hs := h.vars _ hm
  obtain ⟨v, hv⟩ := hd _ hm
  have hsz := sizeOf'_le hm hv
  have he : (encVar cw.version x.1 (idsOf cw.dimIds x.1) (sizeOf' x.1) x.2).length
      ≤ (fileOf cw).length := by
    have := mem_flatMap_length (fun x : SavedVar × Nat =>
      encVar cw.version x.1 (idsOf cw.dimIds x.1) (sizeOf' x.1) x.2) hx
    simp only [fileOf, headerOf, encVars, List.length_append]
    omega
  simp only [encVar, encName, List.length_append] at he
  have hoff := layout_off hd x hx
  have hfl : (fileOf cw).length = beginOf cw + (cw.vars.flatMap dataPad).length := by
    simp only [fileOf, List.length_append, headerOf_length]
  have h63 := hl.size.i63
  refine ⟨hs.name, hl.size.num.mono (by omega), by omega, ?_, ?_, ?_, ?_, hl.size.num.mono hsz,
    by omega⟩
  · rw [idsOf_length hs]; exact hl.rank _ hm
  · intro id hid
    obtain ⟨i, hi, _, h3⟩ := ids_mem h hs hid
    exact ⟨_, h3, hpos _ hm _ (List.getElem_mem hi)⟩
  · intro id hid
    obtain ⟨i, hi, h2, _⟩ := ids_mem h hs hid
    have := hl.dims
    exact NumOK_small (by omega)
  · exact hs.attrs.ok hl.size (by omega)

theorem dims_ok {ma : Nat} {cw : Writer} (h : WGood cw) (hl : Limits ma cw)
    (hpos : ∀ sv ∈ cw.vars, ∀ d ∈ sv.dimLengths, 0 < d)
    (hd : ∀ sv ∈ cw.vars, ∃ v, DataOK sv v) : ∀ d ∈ dimsOf cw, DimOK cw.version d := by
  intro d hdm
  have hflen : (encDims cw.version (dimsOf cw)).length ≤ (fileOf cw).length := by
    simp only [fileOf, headerOf, frontOf, List.length_append]; omega
  have hne : ¬ (dimsOf cw).length = 0 := by
    intro hz
    rw [List.length_eq_zero_iff.mp hz] at hdm; simp at hdm
  have he := mem_flatMap_length (encDim cw.version) hdm
  have hnl : d.name.length ≤ (fileOf cw).length := by
    unfold encDims at hflen
    rw [if_neg hne] at hflen
    simp only [encDim, encName, List.length_append] at hflen he
    omega
  simp only [dimsOf, List.mem_map] at hdm
  obtain ⟨n, hn, rfl⟩ := hdm
  have h63 := hl.size.i63
  refine ⟨h.nul n hn, hl.size.num.mono hnl, by simp only at hnl ⊢; omega, ?_⟩
  obtain ⟨sv, hsm, hnt⟩ := h.used n hn
  have hs := h.vars sv hsm
  obtain ⟨i, hi, hin⟩ := List.getElem_of_mem hnt
  have hil : i < sv.dimLengths.length := by
    rw [List.length_take] at hi; omega
  have hr := hs.reg i hil
  rw [List.getElem_take] at hin
  rw [hin] at hr
  simp only [hr, Option.getD_some]
  obtain ⟨v, hv⟩ := hd sv hsm
  have h1 := le_prod_of_mem (hpos sv hsm) (List.getElem_mem hil)
  have h2 := prod_le_sizeOf' sv
  have h3 := sizeOf'_le hsm hv
  have h4 : prod sv.dimLengths ≤ prod sv.dimLengths * sv.ty.size :=
    Nat.le_mul_of_pos_right _ (NcType.size_pos _)
  exact hl.size.num.mono (by omega)

/-- The handle that the reader makes of the file. -/
def hdrOf (cw : Writer) : Hdr :=
  { version := cw.version, numRecs := 0, recSize := 0, dims := dimsOf cw,
    attrs := (readBack cw.globalAttrs).hide ncpKey,
    vars := addAll OMap.empty ((layout cw.vars (beginOf cw)).map (varRec cw.dimIds)),
    special := false }

theorem varsTag_reads {cw : Writer} (hn : NumOK cw.version cw.vars.length) :
    Reads (getNElems cw.version fieldVariable) (varsTag cw) cw.vars.length := by
  unfold varsTag
  split
  · rename_i hz
    rw [hz]
    exact reads_getNElems_absent
  · exact reads_getNElems (by decide) (by decide) hn

theorem reads_header {ma : Nat} {cw : Writer} (h : WGood cw) (hl : Limits ma cw)
    (hg : AttrsGood cw.version cw.globalAttrs) (hnd : (cw.vars.map (·.name)).Nodup)
    (hpos : ∀ sv ∈ cw.vars, ∀ d ∈ sv.dimLengths, 0 < d)
    (hd : ∀ sv ∈ cw.vars, ∃ v, DataOK sv v) : Reads (readHeader ma) (headerOf cw) (hdrOf cw) := by
  have hver := h.version
  have h63 := hl.size.i63
  have hma := hl.ma
  have hfl : (fileOf cw).length = (frontOf cw).length + (varsTag cw).length +
      (encVars cw.version cw.dimIds (layout cw.vars (beginOf cw))).length +
      (cw.vars.flatMap dataPad).length := by
    simp only [fileOf, headerOf, List.length_append]
  have hfr : (frontOf cw).length = (ascii "CDF" ++ beEnc 1 cw.version).length +
      ((encNum cw.version 0).length + ((encDims cw.version (dimsOf cw)).length +
        (encAttrs cw.version cw.globalAttrs).length)) := by
    simp only [frontOf, List.length_append]
  have hnv : cw.vars.length ≤
      (encVars cw.version cw.dimIds (layout cw.vars (beginOf cw))).length := by
    have := flatMap_length_ge (layout cw.vars (beginOf cw)) (fun x : SavedVar × Nat =>
      encVar cw.version x.1 (idsOf cw.dimIds x.1) (sizeOf' x.1) x.2) (by
        intro x _
        simp only [encVar, List.length_append, beEnc_length]; omega)
    rwa [layout_length] at this
  have hlists : Reads (readLists ma cw.version 0)
      (encDims cw.version (dimsOf cw) ++ (encAttrs cw.version cw.globalAttrs ++
        (varsTag cw ++ encVars cw.version cw.dimIds (layout cw.vars (beginOf cw)))))
      (hdrOf cw) := by
    have hdl : (dimsOf cw).length = cw.dimNames.length := by simp [dimsOf]
    obtain ⟨e1, e2, he, hr1, hr2⟩ := reads_dims (ma := ma) (dims_ok h hl hpos hd)
      (NumOK_small (version := cw.version) (n := (dimsOf cw).length) (by
        have := hl.dims; omega)) (by omega)
    rw [he, List.append_assoc]
    unfold readLists
    refine Reads.bind hr1 ?_
    refine Reads.bind_nil (reads_assert (by have := hl.dims; simp; omega)) ?_
    refine Reads.bind hr2 ?_
    refine Reads.bind (reads_getAttrList (hg.ok hl.size (by omega)) (by omega)) ?_
    refine Reads.bind (varsTag_reads (hl.size.num.mono (by omega))) ?_
    have hrv := reads_readVars (ma := ma) hver (dims := dimsOf cw) (dimIds := cw.dimIds)
      (layout cw.vars (beginOf cw)) OMap.empty (entry_readable h hl hpos hd) (by omega)
      (by
        have : (layout cw.vars (beginOf cw)).map (fun x => x.1.name) = cw.vars.map (·.name) := by
          rw [← layout_map cw.vars (beginOf cw), List.map_map]
          rw [layout_map]; rfl
        rw [this]; exact hnd)
      (by intro x _; rfl)
    rw [layout_length] at hrv
    rw [← List.append_nil (encVars cw.version cw.dimIds (layout cw.vars (beginOf cw)))]
    refine Reads.bind hrv ?_
    refine Reads.bind_nil (reads_lift (a := (0, false)) (by rfl)) ?_
    exact Reads.pure _
  have hhead : Reads (readHeader ma) (headerOf cw) (hdrOf cw) := by
    have e : headerOf cw = (ascii "CDF" ++ beEnc 1 cw.version) ++ (encNum cw.version 0 ++
        (encDims cw.version (dimsOf cw) ++ (encAttrs cw.version cw.globalAttrs ++
        (varsTag cw ++ encVars cw.version cw.dimIds (layout cw.vars (beginOf cw)))))) := by
      simp [headerOf, frontOf]
    rw [e]
    unfold readHeader
    refine Reads.bind (reads_rdN' _ (by simp [ascii])) ?_
    have ht : (ascii "CDF" ++ beEnc 1 cw.version).take 3 = ascii "CDF" := by
      rw [List.take_left' (by decide)]
    have hvb : ((ascii "CDF" ++ beEnc 1 cw.version).getD 3 0).toNat = cw.version := by
      rcases hver with h' | h' <;> rw [h'] <;> decide
    rw [ht, hvb]
    simp only [ne_eq, not_true, if_false]
    rw [if_pos (by omega)]
    refine Reads.bind (reads_readNumber (NumOK_zero _)) ?_
    refine Reads.bind_nil (reads_assert (by decide)) ?_
    exact hlists
  exact hhead

theorem openCdf_fileOf {ma : Nat} {cw : Writer} (h : WGood cw) (hl : Limits ma cw)
    (hg : AttrsGood cw.version cw.globalAttrs) (hnd : (cw.vars.map (·.name)).Nodup)
    (hpos : ∀ sv ∈ cw.vars, ∀ d ∈ sv.dimLengths, 0 < d)
    (hd : ∀ sv ∈ cw.vars, ∃ v, DataOK sv v) (rest : Bytes) :
    openCdf ma (headerOf cw ++ rest) = .ok (hdrOf cw) := by
  unfold openCdf
  rw [reads_header h hl hg hnd hpos hd]

/-! ### Reading a variable -/

theorem varDims_eq {h : Hdr} (ids : List Nat) (k : Nat) (r : List (Nat × Bytes))
    (hl : ids.length = r.length)
    (hr : ∀ i (h1 : i < ids.length) (h2 : i < r.length),
      h.dims[ids[i]]? = some ⟨r[i].2, r[i].1⟩ ∧ 0 < r[i].1) :
    varDims h ids k = .ok (r, false) := by
  induction ids generalizing k r with
  | nil =>
    cases r with
    | nil => rfl
    | cons x r => simp at hl
  | cons id ids ih =>
    cases r with
    | nil => simp at hl
    | cons x r =>
      obtain ⟨h1, h2⟩ := hr 0 (by simp) (by simp)
      simp only [List.getElem_cons_zero] at h1 h2
      have := ih (k + 1) r (by simpa using hl) (by
        intro i hi1 hi2
        have := hr (i + 1) (by simp; omega) (by simp; omega)
        simpa using this)
      simp only [varDims, h1]
      rw [if_neg (by omega), this]
      have h0 : x.1 ≠ 0 := by omega
      simp [h0]

theorem hide_values {α : Type} (om : OMap α) (k : Bytes) : (om.hide k).values = om.values := rfl

theorem readBack_fill {cw : Writer} {sv : SavedVar} (hs : SvGood cw sv) :
    (readBack sv.attrs).get (ascii "_FillValue") = none := by
  cases ha : sv.attrs with
  | none => rfl
  | some om =>
    have := hs.fill om ha
    simp only [readBack, OMap.get]
    rw [GoMap.get_eq_none]
    simpa [GoMap.keys, entries, Function.comp_def] using this

/-- The getter for a variable of the file. -/
theorem getVarCommon_fileOf {cw : Writer} (h : WGood cw)
    (hnd : (cw.vars.map (·.name)).Nodup)
    (hpos : ∀ sv ∈ cw.vars, ∀ d ∈ sv.dimLengths, 0 < d)
    {x : SavedVar × Nat} (hx : x ∈ layout cw.vars (beginOf cw)) :
    ∃ g, getVarCommon (hdrOf cw) x.1.name = .ok g ∧ g.vr = varRec cw.dimIds x ∧ g.ty = x.1.ty ∧
      g.dimLengths = x.1.dimLengths ∧
      g.dimNames = x.1.dimNames.take x.1.dimLengths.length ∧ g.unlimited = false ∧
      (x.1.dimLengths = [] → g.chunkSize = 1 ∧ g.length = 1) := by
  have hm := mem_layout hx
  have hs := h.vars _ hm
  have hget : (hdrOf cw).vars.get x.1.name = some (varRec cw.dimIds x) := by
    have := addAll_get OMap.empty ((layout cw.vars (beginOf cw)).map (varRec cw.dimIds)) (by
      have e : ((layout cw.vars (beginOf cw)).map (varRec cw.dimIds)).map (·.name)
          = cw.vars.map (·.name) := by
        rw [← layout_map cw.vars (beginOf cw), List.map_map, List.map_map, layout_map]
        rfl
      rw [e]; exact hnd) (varRec cw.dimIds x) (List.mem_map_of_mem hx)
    exact this
  have hvd : varDims (hdrOf cw) (idsOf cw.dimIds x.1) 0
      = .ok (x.1.dimLengths.zip (x.1.dimNames.take x.1.dimLengths.length), false) := by
    have hdims := hs.dims
    have hzl : (x.1.dimLengths.zip (x.1.dimNames.take x.1.dimLengths.length)).length
        = x.1.dimLengths.length := by
      simp only [List.length_zip, List.length_take]; omega
    apply varDims_eq
    · rw [idsOf_length hs, hzl]
    · intro i h1 h2
      have hi : i < x.1.dimLengths.length := by rw [idsOf_length hs] at h1; exact h1
      obtain ⟨id, he1, _, he3⟩ := ids_resolve h hs i hi
      rw [List.getElem?_eq_getElem h1] at he1
      have he1 : (idsOf cw.dimIds x.1)[i] = id := by simpa using he1
      rw [he1]
      simp only [List.getElem_zip, List.getElem_take]
      exact ⟨he3, hpos _ hm _ (List.getElem_mem hi)⟩
  have hz1 : (x.1.dimLengths.zip (x.1.dimNames.take x.1.dimLengths.length)).map (·.1)
      = x.1.dimLengths := by
    apply List.map_fst_zip
    simp only [List.length_take]; have := hs.dims; omega
  have hz2 : (x.1.dimLengths.zip (x.1.dimNames.take x.1.dimLengths.length)).map (·.2)
      = x.1.dimNames.take x.1.dimLengths.length := by
    apply List.map_snd_zip
    simp only [List.length_take]; omega
  unfold getVarCommon
  rw [hget]
  simp only [varRec]
  rw [hvd, Res.bind_ok]
  simp only [ofCode_code, hz1, hz2, Res.pure_eq]
  refine ⟨_, rfl, rfl, rfl, rfl, rfl, rfl, ?_⟩
  intro h0
  simp [h0, totalSize]

/-- Reading back a variable. -/
theorem getVariable_fileOf {ma : Nat} {cw : Writer} (h : WGood cw) (hl : Limits ma cw)
    (hnd : (cw.vars.map (·.name)).Nodup)
    (hpos : ∀ sv ∈ cw.vars, ∀ d ∈ sv.dimLengths, 0 < d)
    (hd : ∀ sv ∈ cw.vars, ∃ v, DataOK sv v)
    {sv : SavedVar} (hsv : sv ∈ cw.vars) {v : GoVal} (hv : DataOK sv v) :
    getVariable ma (hdrOf cw) (fileOf cw) sv.name
      = .ok ⟨v, sv.dimNames.take sv.dimLengths.length, some (readBack sv.attrs)⟩ := by
  -- the place of the variable
  obtain ⟨x, hx, rfl⟩ : ∃ x ∈ layout cw.vars (beginOf cw), x.1 = sv := by
    rw [← layout_map cw.vars (beginOf cw)] at hsv
    obtain ⟨x, hx, he⟩ := List.mem_map.mp hsv
    exact ⟨x, hx, he⟩
  have hs := h.vars _ hsv
  obtain ⟨g, hg, hvr, hty, hdl, hdn, hun, hsc⟩ := getVarCommon_fileOf h hnd hpos hx
  obtain ⟨rest, hdrop, _⟩ := layout_data cw.vars (beginOf cw) (headerOf cw) (headerOf_length cw) hd x hx
  have hdrop : (fileOf cw).drop x.2 = dataPad x.1 ++ rest := hdrop
  have hfill : fillPattern g.ty g.vr.attrs = .ok (defaultFill g.ty) := by
    unfold fillPattern
    have : g.vr.attrs.get (ascii "_FillValue") = none := by
      rw [hvr]; exact readBack_fill hs
    rw [this]
  have hbeg : g.vr.begin_ = x.2 := by rw [hvr]; rfl
  have h63 := hl.size.i63
  have hma := hl.ma
  have hoff := layout_off hd x hx
  have hfl : (fileOf cw).length = beginOf cw + (cw.vars.flatMap dataPad).length := by
    simp only [fileOf, List.length_append, headerOf_length]
  have hps := prod_le_sizeOf' x.1
  have hpl := dataPad_length hv
  have hbytes : filled ((fileOf cw).drop x.2) (defaultFill g.ty)
      (prod x.1.dimLengths * x.1.ty.size) = dataOf x.1 := by
    rw [hdrop, filled_full (by rw [List.length_append, hpl]; omega)]
    unfold dataPad
    rw [List.append_assoc, List.take_left' hv.len]
  have hgs : getSlice ma (hdrOf cw) (fileOf cw) g 0 g.length = .ok v := by
    cases hdims : x.1.dimLengths with
    | nil =>
      obtain ⟨hc1, hc2⟩ := hsc hdims
      rw [hdims] at hbytes hps
      simp only [prod, Nat.one_mul] at hbytes hps
      have hrd := readData_plain (ma := ma) (h := hdrOf cw) (file := fileOf cw) (g := g)
        (Or.inl hun) hfill (start := 0) (n := g.ty.size) (by rw [hbeg]; omega)
        (by rw [hty]; omega)
      rw [hty] at hbytes
      rw [Nat.add_zero, hbeg, hty, hbytes] at hrd
      unfold getSlice getSliceCap
      have hdl0 : g.dimLengths = [] := by rw [hdl, hdims]
      have hnc : g.nChunks 0 g.length = 1 := by unfold Getter.nChunks; rw [hdl0]
      have hsd : g.sliceDims 1 = [] := by unfold Getter.sliceDims; rw [hdl0]
      rw [hc2]
      rw [hc2] at hnc
      rw [if_neg (by omega)]
      have w1 : w64 1 = 1 := w64_id (by decide) (by decide)
      have w1' : w64 (1 * 1) = 1 := w1
      have w2 : w64 (w64 (0 * 1) * (x.1.ty.size : Int)) = 0 := by
        rw [Int.zero_mul, w64_zero, Int.zero_mul, w64_zero]
      have w3 : w64 ((x.1.ty.size : Int)) = (x.1.ty.size : Int) := by
        rw [w64_nat (by omega)]
      simp only [hnc, hc1, hty, w1, w1', w2, w3, Int.one_mul, hsd]
      have hrd' : readData ma (hdrOf cw) (fileOf cw) g 0 (x.1.ty.size : Int) (x.1.ty.size : Int)
          = .ok (dataOf x.1) := hrd
      rw [hrd', Res.bind_ok]
      have hback := hv.back
      rw [hdims] at hback
      obtain ⟨cv, hcv1, hcv2⟩ := convertCap_exact x.1.ty []
        (decodeElems x.1.ty.readKind 1 (dataOf x.1)) (by simp) (by simp [decodeElems_length, prod])
        (by decide) (by simp)
      have : (1 : Int).toNat = 1 := rfl
      rw [this, hcv1]
      simp only [Res.map]
      rw [hcv2]
      exact congrArg Res.ok hback
    | cons D ds =>
      have hdl' : g.dimLengths = D :: ds := by rw [hdl, hdims]
      have hpos' : ∀ d ∈ D :: ds, 0 < d := by rw [← hdims]; exact hpos _ hsv
      have hpr : prod x.1.dimLengths = D * prod ds := by rw [hdims]; rfl
      rw [hpr] at hbytes hps
      have hlt : D * prod ds * x.1.ty.size < 2 ^ 63 := by omega
      have hlt' : D * prod ds < 2 ^ 63 := by
        have : D * prod ds ≤ D * prod ds * x.1.ty.size :=
          Nat.le_mul_of_pos_right _ (NcType.size_pos _)
        omega
      obtain ⟨hp1, hc, hc0, hlen, _, _⟩ := getVarCommon_dims hg hdl' hlt'
      have hplain : Plain ma (hdrOf cw) g D ds (defaultFill g.ty) :=
        ⟨Or.inl hun, hdl', hp1, hc, hc0, by rw [hbeg, hty]; omega, hfill, by rw [hty]; omega⟩
      have hD := hpos' D (by simp)
      have := getSlice_plain (file := fileOf cw) hplain 0 D (by omega) (by omega) (by omega)
      rw [hlen]
      rw [show ((0 : Nat) : Int) = 0 from rfl] at this
      rw [this]
      simp only [Nat.sub_zero, Nat.zero_mul, Nat.add_zero, hty, hbeg]
      rw [hty] at hbytes
      rw [hbytes]
      have hback := hv.back
      rw [hpr, hdims] at hback
      rw [hback]
  unfold getVariable
  unfold getSlice at hgs
  rw [hg, Res.bind_ok, hgs, Res.bind_ok, hdn, hvr]
  rfl

end Verif.Cdf
