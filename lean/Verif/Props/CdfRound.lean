import Verif.Lemmas.CdfCalls
import Verif.Spec.CdfLayout
/-!
C01–C05: what is written with the CDF writer is read back.
-/
namespace Verif.Cdf

/-- The limits of the format and of the reader: sizes fit the number fields of the version
(2 GiB, or 2^63 in version 5), at most 1024 dimensions, and enough memory (`ma`) to hold it. -/
structure Fits (ma : Nat) (cw : Writer) (file : Bytes) : Prop where
  size : file.length < 2 ^ 31 ∨ (cw.version = 5 ∧ file.length < 2 ^ 63)
  mem : file.length ≤ ma
  dims : cw.dimNames.length ≤ 1024
  rank : ∀ sv ∈ cw.vars, sv.dimLengths.length ≤ 1024

/-- A sequence of supported calls that all succeed: distinct variable names, and version 5 types
in the global attributes only if some variable needs version 5. -/
structure Session (u : UniTables) (calls : List Call) (cw : Writer) : Prop where
  run : runAll u calls Writer.init = some cw
  fine : ∀ c ∈ calls, FineCall c
  distinct : (addedNames calls).Nodup
  globals : AttrsNeedV5 (lastAttributes calls) → VarsNeedV5 calls

theorem Session.inv {u : UniTables} {calls : List Call} {cw : Writer} (h : Session u calls cw) :
    Inv u calls cw := by
  have := inv_run calls (inv_init u) h.fine h.run
  simpa using this

theorem Session.v5 {u : UniTables} {calls : List Call} {cw : Writer} (h : Session u calls cw) :
    checkV5Attributes cw.version cw.globalAttrs = (cw.version, .ok ()) := by
  have hi := h.inv
  have hck := checkV5_ok (version := cw.version) hi.fine
  by_cases h5 : AttrsNeedV5 cw.globalAttrs
  · rw [hck.1 h5]
    rw [hi.globals] at h5
    rw [hi.version.mpr (h.globals h5)]
  · exact hck.2 h5

theorem Session.good {u : UniTables} {calls : List Call} {cw : Writer} (h : Session u calls cw) :
    AttrsGood cw.version cw.globalAttrs := by
  have hi := h.inv
  apply attrsGood_of_fine hi.fine hi.valid
  intro h5
  rw [hi.globals] at h5
  exact hi.version.mpr (h.globals h5)

theorem Session.file {u : UniTables} {calls : List Call} {cw : Writer} (h : Session u calls cw) :
    cw.writeAll = .ok (fileOf cw) :=
  writeAll_eq h.inv.good h.v5 h.good.vals h.inv.pos h.inv.data

theorem Fits.limits {ma : Nat} {cw : Writer}
    (h : Fits ma cw (fileOf cw)) : Limits ma cw := by
  refine ⟨⟨?_, ?_⟩, h.mem, h.dims, h.rank⟩
  · unfold NumOK
    rcases h.size with h1 | ⟨h1, h2⟩
    · split <;> omega
    · rw [if_neg (by omega)]; omega
  · rcases h.size with h1 | ⟨_, h2⟩ <;> omega

theorem Session.open {u : UniTables} {calls : List Call} {cw : Writer} (h : Session u calls cw)
    {ma : Nat} (hf : Fits ma cw (fileOf cw)) : openCdf ma (fileOf cw) = .ok (hdrOf cw) :=
  openCdf_fileOf h.inv.good hf.limits h.good
    (by rw [h.inv.names]; exact h.distinct) h.inv.pos h.inv.data _

theorem Session.openHeader {u : UniTables} {calls : List Call} {cw : Writer}
    (h : Session u calls cw) {ma : Nat} (hf : Fits ma cw (fileOf cw)) :
    openCdf ma (headerOf cw) = .ok (hdrOf cw) := by
  have := openCdf_fileOf h.inv.good hf.limits h.good
    (by rw [h.inv.names]; exact h.distinct) h.inv.pos h.inv.data []
  rwa [List.append_nil] at this

/-- **C01 (Close succeeds).** After supported calls, all successful, `Close` succeeds. -/
theorem C01_close_succeeds (u : UniTables) (calls : List Call) (cw : Writer)
    (h : Session u calls cw) : ∃ file, cw.writeAll = .ok file := ⟨_, h.file⟩

/-- **C01 (variables).** Every variable added by supported calls is read back: `Open` succeeds,
`ListVariables` gives the names in order, `GetVariable` the value (strings padded), and dimension
names, the first of which are those given.

Partial: the calls must be supported (`FineCall`): see the negations below for what happens to
zero-length arrays, ragged or unevenly padded string arrays, non-ASCII characters and signalling
NaNs; and variable names must be distinct. -/
theorem C01_variable_round_trip_partial (u : UniTables) (calls : List Call) (cw : Writer)
    (h : Session u calls cw) (ma : Nat) (file : Bytes) (hc : cw.writeAll = .ok file)
    (hf : Fits ma cw file) :
    ∃ hd, openCdf ma file = .ok hd ∧ hd.listVariables = addedNames calls ∧
      ∀ name vr, Call.addVar name vr ∈ calls → ∀ shape w,
        Supported (!vr.dimensions.isEmpty) vr.values shape w →
        ∃ dims attrs, getVariable ma hd file name = .ok ⟨w, dims, attrs⟩ ∧
          dims.length = shape.length ∧
          ∀ i, i < shape.length → i < vr.dimensions.length → dims[i]? = vr.dimensions[i]? := by
  rw [h.file] at hc
  cases hc
  have hi := h.inv
  have hnd : (cw.vars.map (·.name)).Nodup := by rw [hi.names]; exact h.distinct
  refine ⟨hdrOf cw, h.open hf, ?_, ?_⟩
  · have := (addAll_visible OMap.empty ((layout cw.vars (beginOf cw)).map (varRec cw.dimIds))
      rfl).1
    rw [← hi.names]
    show (addAll OMap.empty _).visible = _
    rw [this]
    simp only [OMap.empty, List.nil_append, List.map_map]
    rw [← layout_map cw.vars (beginOf cw), List.map_map, layout_map]
    rfl
  · intro name vr hm shape w hsup
    obtain ⟨sv, hsv, hs⟩ := hi.saved name vr hm
    obtain ⟨hshape, hdata, _⟩ := hs.back shape w hsup
    have hg := getVariable_fileOf hi.good hf.limits hnd hi.pos hi.data hsv hdata
    rw [hs.name] at hg
    refine ⟨_, _, hg, ?_, ?_⟩
    · have := (hi.good.vars sv hsv).dims
      simp only [List.length_take, hshape] at this ⊢; omega
    · intro i h1 h2
      obtain ⟨extra, he⟩ := hs.dims
      rw [List.getElem?_take, hshape, if_pos h1, he, List.getElem?_append_left h2]

theorem unwrap1_eq (v : GoVal) : unwrap1 v = unwrapOne v := by
  cases v with
  | slice e xs =>
    cases xs with
    | nil => rfl
    | cons x xs => cases xs <;> rfl
  | _ => rfl

theorem readBack_spec {attrs : Attrs} (h : AttrsFine attrs) :
    ReadBackAs attrs (some (readBack attrs)) := by
  cases attrs with
  | none => simp [ReadBackAs, keysOf, readBack, OMap.empty, OMap.visibleKeys]
  | some om =>
    obtain ⟨h1, h2⟩ := h om rfl
    refine ⟨rfl, ?_⟩
    intro k hk
    simp only [keysOf] at hk
    obtain ⟨v, hv, _⟩ := h2 k hk
    simp only [valueOf, readBack, OMap.get] at hv ⊢
    rw [hv]
    simp only [Option.map_some, unwrap1_eq]
    have : ∀ ks : List Bytes, k ∈ ks → ks.Nodup →
        GoMap.get (ks.map (fun k => (k, unwrapOne ((GoMap.get om.values k).getD (.other false))))) k
          = some (unwrapOne v) := by
      intro ks
      induction ks with
      | nil => intro h; simp at h
      | cons k' ks ih =>
        intro hm hn
        simp only [List.map_cons, GoMap.get_cons]
        by_cases he : k = k'
        · subst he; simp [hv]
        · simp only [he, if_false]
          simp only [List.nodup_cons] at hn
          exact ih (by simpa [he] using hm) hn.2
    have := this om.visibleKeys hk h1
    simpa [entries, List.map_map, Function.comp_def, OMap.get] using this

theorem ncp_not_mem {u : UniTables} {attrs : Attrs} (h : hasValidNames u attrs = true) :
    ncpKey ∉ (readBack attrs).visibleKeys := by
  cases attrs with
  | none => simp [readBack, OMap.empty, OMap.visibleKeys]
  | some om =>
    intro hm
    simp only [hasValidNames, List.all_eq_true] at h
    have h1 := h _ hm
    have : ncpKey = 95 :: ascii "NCProperties" := by decide
    rw [this, C07_rejected_underscore] at h1
    cases h1

/-- **C02 (attributes).** The global attributes of the last `AddAttributes` and the attributes of
every variable are read back with the same keys in the same order and the same values, except that
a one-element slice comes back as its element.

Partial: as for C01; in particular global attributes of version 5 types are covered only if a
variable needs version 5 (see `C02_negation_v5_globals`). -/
theorem C02_attribute_round_trip_partial (u : UniTables) (calls : List Call) (cw : Writer)
    (h : Session u calls cw) (ma : Nat) (file : Bytes) (hc : cw.writeAll = .ok file)
    (hf : Fits ma cw file) :
    ∃ hd, openCdf ma file = .ok hd ∧ ReadBackAs (lastAttributes calls) (some hd.attributes) ∧
      ∀ name vr, Call.addVar name vr ∈ calls →
        ∃ got, getVariable ma hd file name = .ok got ∧
          ReadBackAs vr.attributes got.attributes := by
  rw [h.file] at hc
  cases hc
  have hi := h.inv
  have hnd : (cw.vars.map (·.name)).Nodup := by rw [hi.names]; exact h.distinct
  refine ⟨hdrOf cw, h.open hf, ?_, ?_⟩
  · have hr := readBack_spec hi.fine
    have hn := ncp_not_mem hi.valid
    rw [← hi.globals]
    have hk : ((readBack cw.globalAttrs).hide ncpKey).visibleKeys
        = (readBack cw.globalAttrs).visibleKeys := by
      cases hg : cw.globalAttrs with
      | none => rfl
      | some om =>
        rw [hg] at hn
        show List.filter _ om.visibleKeys = om.visibleKeys
        rw [List.filter_eq_self]
        · intro k hk
          have : k ≠ ncpKey := by
            rintro rfl; exact hn hk
          simpa [readBack] using this
    refine ⟨?_, ?_⟩
    · show OMap.visibleKeys _ = _
      rw [Hdr.attributes, hdrOf]
      rw [hk]
      exact hr.1
    · exact hr.2
  · intro name vr hm
    obtain ⟨sv, hsv, hs⟩ := hi.saved name vr hm
    obtain ⟨shape, w, hsup⟩ := hs.supp
    obtain ⟨hshape, hdata, _⟩ := hs.back shape w hsup
    have hg := getVariable_fileOf hi.good hf.limits hnd hi.pos hi.data hsv hdata
    rw [hs.name] at hg
    refine ⟨_, hg, ?_⟩
    simp only [hs.attrs]
    apply readBack_spec
    have := h.fine _ hm
    exact this.2.2

/-! ### C03 -/

/-- Start and length of the data of a variable, as recorded in the header. -/
def areaOf (hd : Hdr) (name : Bytes) : Nat × Nat :=
  match hd.vars.get name with
  | some r => (r.begin_, r.vsize.toNat)
  | none => (0, 0)

theorem tile_layout (svs : List SavedVar) (off : Nat) (h : ∀ sv ∈ svs, ∃ v, DataOK sv v) :
    Tile off ((layout svs off).map (fun x => (x.2, sizeOf' x.1)))
      (off + (svs.flatMap dataPad).length) := by
  induction svs generalizing off with
  | nil => simp [layout, Tile]
  | cons sv svs ih =>
    obtain ⟨v, hv⟩ := h sv (by simp)
    have hl := dataPad_length hv
    refine ⟨rfl, ?_⟩
    have := ih (off + sizeOf' sv) (fun y hy => h y (by simp [hy]))
    simp only [List.flatMap_cons, List.length_append, hl]
    rw [← Nat.add_assoc]
    exact this

theorem Session.get {u : UniTables} {calls : List Call} {cw : Writer} (h : Session u calls cw)
    {x : SavedVar × Nat} (hx : x ∈ layout cw.vars (beginOf cw)) :
    (hdrOf cw).vars.get x.1.name = some (varRec cw.dimIds x) := by
  have hi := h.inv
  have := addAll_get OMap.empty ((layout cw.vars (beginOf cw)).map (varRec cw.dimIds)) (by
    have e : ((layout cw.vars (beginOf cw)).map (varRec cw.dimIds)).map (·.name)
        = cw.vars.map (·.name) := by
      rw [← layout_map cw.vars (beginOf cw), List.map_map, List.map_map, layout_map]
      rfl
    rw [e, hi.names]; exact h.distinct) (varRec cw.dimIds x) (List.mem_map_of_mem hx)
  exact this

theorem Session.area {u : UniTables} {calls : List Call} {cw : Writer} (h : Session u calls cw)
    (h63 : (fileOf cw).length < 2 ^ 63) {x : SavedVar × Nat}
    (hx : x ∈ layout cw.vars (beginOf cw)) :
    areaOf (hdrOf cw) x.1.name = (x.2, sizeOf' x.1) := by
  have hm := mem_layout hx
  obtain ⟨v, hv⟩ := h.inv.data _ hm
  have hsz := sizeOf'_le hm hv
  unfold areaOf
  rw [h.get hx]
  simp only [varRec]
  rw [w64_nat (by omega)]
  rfl

/-- **C03 (data areas).** In a file written by supported calls, the areas recorded in the header
for the variables, in order, follow one another without gap or overlap from the end of the header
(`start`: the first `start` bytes alone open to the same group) to the end of the file; the area of
a variable holds the bytes of its value, followed by fewer than four zero bytes.

Partial: as for C01; a zero-length array breaks it (`C03_negation_zero_length`). -/
theorem C03_data_areas_partial (u : UniTables) (calls : List Call) (cw : Writer)
    (h : Session u calls cw) (ma : Nat) (file : Bytes) (hc : cw.writeAll = .ok file)
    (hf : Fits ma cw file) :
    ∃ hd start, openCdf ma file = .ok hd ∧ openCdf ma (file.take start) = .ok hd ∧
      Tile start ((addedNames calls).map (areaOf hd)) file.length ∧
      ∀ name vr, Call.addVar name vr ∈ calls → ∀ shape w,
        Supported (!vr.dimensions.isEmpty) vr.values shape w →
        ∃ n, n < 4 ∧ (file.drop (areaOf hd name).1).take (areaOf hd name).2
          = rawBytes w ++ List.replicate n 0 := by
  rw [h.file] at hc
  cases hc
  have hi := h.inv
  have h63 := hf.limits.size.i63
  refine ⟨hdrOf cw, (headerOf cw).length, h.open hf, ?_, ?_, ?_⟩
  · rw [fileOf, List.take_left' rfl]; exact h.openHeader hf
  · have ht := tile_layout cw.vars (beginOf cw) hi.data
    rw [← headerOf_length] at ht
    have e : (addedNames calls).map (areaOf (hdrOf cw))
        = (layout cw.vars (headerOf cw).length).map (fun x => (x.2, sizeOf' x.1)) := by
      rw [← hi.names, headerOf_length]
      have : cw.vars.map (·.name)
          = (layout cw.vars (beginOf cw)).map (fun x => x.1.name) := by
        rw [← layout_map cw.vars (beginOf cw), List.map_map, layout_map]; rfl
      rw [this, List.map_map]
      apply List.map_congr_left
      intro x hx
      exact h.area h63 hx
    rw [e, fileOf, List.length_append]
    exact ht
  · intro name vr hm shape w hsup
    obtain ⟨sv, hsv, hs⟩ := hi.saved name vr hm
    obtain ⟨hshape, hdata, hraw⟩ := hs.back shape w hsup
    obtain ⟨x, hx, rfl⟩ : ∃ x ∈ layout cw.vars (beginOf cw), x.1 = sv := by
      rw [← layout_map cw.vars (beginOf cw)] at hsv
      obtain ⟨x, hx, he⟩ := List.mem_map.mp hsv
      exact ⟨x, hx, he⟩
    obtain ⟨rest, hdrop, _⟩ :=
      layout_data cw.vars (beginOf cw) (headerOf cw) (headerOf_length cw) hi.data x hx
    have hdrop : (fileOf cw).drop x.2 = dataPad x.1 ++ rest := hdrop
    rw [← hs.name, h.area h63 hx]
    simp only
    rw [hdrop, List.take_left' (dataPad_length hdata), dataPad, hraw]
    exact ⟨(4 - (rawBytes w).length % 4) % 4, by omega, rfl⟩

/-! ### C04 -/

/-- **C04 (version byte).** The fourth byte of a file written by supported calls is 5 if a variable,
one of its attributes or a global attribute has a type of version 5, and 2 otherwise.

Partial: as for C01; `C04_negation` shows a version 5 type in a file that says version 2. -/
theorem C04_version_byte_partial (u : UniTables) (calls : List Call) (cw : Writer)
    (h : Session u calls cw) (file : Bytes) (hc : cw.writeAll = .ok file) :
    (file[3]? = some 5 ↔ VarsNeedV5 calls ∨ AttrsNeedV5 (lastAttributes calls)) ∧
    (file[3]? = some 2 ↔ ¬ (VarsNeedV5 calls ∨ AttrsNeedV5 (lastAttributes calls))) := by
  rw [h.file] at hc
  cases hc
  have hi := h.inv
  have hb : (fileOf cw)[3]? = some (UInt8.ofNat cw.version) := by
    have h1 : fileOf cw = ascii "CDF" ++ (beEnc 1 cw.version ++ (encNum cw.version 0 ++
        (encDims cw.version (dimsOf cw) ++ encAttrs cw.version cw.globalAttrs) ++ (varsTag cw ++
        (encVars cw.version cw.dimIds (layout cw.vars (beginOf cw)) ++
          cw.vars.flatMap dataPad)))) := by
      simp [fileOf, headerOf, frontOf]
    rw [h1, List.getElem?_append_right (by decide), List.getElem?_append_left (by simp [ascii])]
    rcases hi.good.version with hv | hv <;> rw [hv] <;> decide
  have hg : (VarsNeedV5 calls ∨ AttrsNeedV5 (lastAttributes calls)) ↔ VarsNeedV5 calls :=
    ⟨fun h' => h'.elim id h.globals, Or.inl⟩
  rw [hb, hg, ← hi.version]
  rcases hi.good.version with hv | hv <;> rw [hv] <;> decide

/-! ### C05 -/

/-- **C05 (dimensions of a file).** In a file written by supported calls `GetDimension` of a
dimension name of a variable gives the length of the value in that dimension.

Partial: as for C01. -/
theorem C05_dimensions_resolve_partial (u : UniTables) (calls : List Call) (cw : Writer)
    (h : Session u calls cw) (ma : Nat) (file : Bytes) (hc : cw.writeAll = .ok file)
    (hf : Fits ma cw file) :
    ∃ hd, openCdf ma file = .ok hd ∧
      ∀ name vr, Call.addVar name vr ∈ calls → ∀ shape w,
        Supported (!vr.dimensions.isEmpty) vr.values shape w →
        ∃ got, getVariable ma hd file name = .ok got ∧
          got.dimensions.map hd.getDimension = shape.map some := by
  rw [h.file] at hc
  cases hc
  have hi := h.inv
  have hnd : (cw.vars.map (·.name)).Nodup := by rw [hi.names]; exact h.distinct
  refine ⟨hdrOf cw, h.open hf, ?_⟩
  intro name vr hm shape w hsup
  obtain ⟨sv, hsv, hs⟩ := hi.saved name vr hm
  obtain ⟨hshape, hdata, _⟩ := hs.back shape w hsup
  have hg := getVariable_fileOf hi.good hf.limits hnd hi.pos hi.data hsv hdata
  rw [hs.name] at hg
  refine ⟨_, hg, ?_⟩
  have hsg := hi.good.vars sv hsv
  have hdl := hsg.dims
  apply List.ext_getElem
  · simp only [List.length_map, List.length_take, hshape] at hdl ⊢; omega
  · intro i h1 h2
    simp only [List.length_map] at h2
    rw [← hshape] at h2
    simp only [List.getElem_map, List.getElem_take]
    have hreg := hsg.reg i h2
    have e : shape[i]'(by rw [← hshape]; exact h2) = sv.dimLengths[i] := by
      simp [hshape]
    rw [e]
    -- the dimension is found in the list of dimensions
    have hmem : sv.dimNames[i]'(by omega) ∈ cw.dimNames := by
      rw [← hi.good.lens, ← GoMap.get_isSome, hreg]; rfl
    show Option.map _ (List.find? _ (dimsOf cw)) = _
    generalize sv.dimNames[i]'(by omega) = n at *
    have hfind : ∀ l : List Bytes, n ∈ l →
        (l.map (fun n => (⟨n, (cw.dimLengths.get n).getD 0⟩ : Dim))).find? (fun d => d.name == n)
          = some ⟨n, (cw.dimLengths.get n).getD 0⟩ := by
      intro l
      induction l with
      | nil => intro h; simp at h
      | cons m l ih =>
        intro hml
        simp only [List.map_cons, List.find?_cons]
        by_cases hmn : m = n
        · subst hmn; simp
        · have : (m == n) = false := by simpa using hmn
          simp only [this]
          exact ih (by simpa [Ne.symm hmn] using hml)
    rw [dimsOf, hfind _ hmem, hreg]
    rfl

end Verif.Cdf
