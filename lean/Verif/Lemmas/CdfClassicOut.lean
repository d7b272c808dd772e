import Verif.Lemmas.CdfClassicVar
import Verif.Props.CdfRound
/-!
The files of the writer in the terms of the specification of the format.
-/
namespace Verif.Cdf.Classic

/-- A Go value as the value of an attribute. -/
def ofGo : GoVal → Value
  | .num k b => .numbers k [b]
  | .slice (.num k) xs => .numbers k (xs.map bitsOf)
  | .str s => .text s
  | _ => .text []

theorem ofGo_parts {v : GoVal} (h : AttrVal v) :
    (ofGo v).ty.nc = attrType v ∧ (ofGo v).count = attrCount v ∧ (ofGo v).bytes = attrBytes v ∧
      (ofGo v).go = unwrap1 v ∧ ∀ k bs, ofGo v = .numbers k bs → ∀ b ∈ bs, b < 256 ^ Ty.size (some k) := by
  cases v with
  | num k b =>
    refine ⟨rfl, rfl, ?_, rfl, ?_⟩
    · simp [ofGo, Value.bytes, attrBytes, size_kind]
    · intro k' bs he b' hb
      simp only [ofGo, Value.numbers.injEq] at he
      obtain ⟨rfl, rfl⟩ := he
      simp only [List.mem_singleton] at hb
      subst hb
      rw [size_kind]; exact h
  | str s => exact ⟨rfl, rfl, rfl, rfl, by intro k bs he; cases he⟩
  | slice e xs =>
    cases e with
    | num k =>
      refine ⟨rfl, by simp [ofGo, Value.count, attrCount], ?_, ?_, ?_⟩
      · simp [ofGo, Value.bytes, attrBytes, size_kind, List.flatMap_map]
      · have hx : ∀ xs : List GoVal, (∀ x ∈ xs, NumVal k x) →
            (xs.map bitsOf).map (GoVal.num k) = xs := by
          intro xs hxs
          induction xs with
          | nil => rfl
          | cons x xs ih =>
            obtain ⟨b, rfl, _⟩ := hxs x (by simp)
            simp only [List.map_cons, ih (fun y hy => hxs y (by simp [hy]))]
            rfl
        have := hx xs h
        simp only [ofGo]
        match xs, this with
        | [], _ => rfl
        | [x], this => simpa [Value.go, unwrap1] using this
        | x :: y :: zs, this => simpa [Value.go, unwrap1] using this
      · intro k' bs he b' hb
        simp only [ofGo, Value.numbers.injEq] at he
        obtain ⟨rfl, rfl⟩ := he
        obtain ⟨x, hx, rfl⟩ := List.mem_map.mp hb
        obtain ⟨b, rfl, hlt⟩ := h x hx
        rw [size_kind]; exact hlt
    | str => exact absurd h (by simp [AttrVal])
    | slice t => exact absurd h (by simp [AttrVal])
    | other b => exact absurd h (by simp [AttrVal])
  | other b => exact absurd h (by simp [AttrVal])
  | user u => exact absurd h (by simp [AttrVal])

/-- The attributes as a list. -/
def attsOf : Attrs → List Att
  | none => []
  | some om => (entries om).map (fun kv => ⟨kv.1, ofGo kv.2⟩)

theorem attsOf_names (attrs : Attrs) : (attsOf attrs).map (·.name) = keysOf attrs := by
  cases attrs with
  | none => rfl
  | some om => simp [attsOf, entries, keysOf, Function.comp_def]

/-- An attribute of the list. -/
theorem attsOf_mem {attrs : Attrs} (h : AttrsVals attrs) {a : Att} (ha : a ∈ attsOf attrs) :
    ∃ v, valueOf attrs a.name = some v ∧ a.value = ofGo v ∧ AttrVal v := by
  cases attrs with
  | none => simp [attsOf] at ha
  | some om =>
    simp only [attsOf, entries, List.map_map, List.mem_map, Function.comp_apply] at ha
    obtain ⟨k, hk, rfl⟩ := ha
    obtain ⟨v, hv, hav⟩ := h om rfl k hk
    exact ⟨v, hv, by simp [hv], hav⟩

theorem attsOf_bytes {version : Nat} (hv : version = 1 ∨ version = 2 ∨ version = 5) {attrs : Attrs}
    (h : AttrsVals attrs) :
    list version 12 (attsOf attrs) (Att.bytes version) = encAttrs version attrs := by
  cases attrs with
  | none => simp [attsOf, list, encAttrs, number_eq hv]
  | some om =>
    unfold list encAttrs
    have hl : (attsOf (some om)).length = om.visibleKeys.length := by simp [attsOf, entries]
    simp only [hl, number_eq hv, fieldAttribute]
    split
    · rfl
    · congr 2
      simp only [attsOf, List.flatMap_map]
      have : ∀ kv ∈ entries om, Att.bytes version ⟨kv.1, ofGo kv.2⟩ = encEntry version kv.1 kv.2 := by
        intro kv hkv
        simp only [entries, List.mem_map] at hkv
        obtain ⟨k, hk, rfl⟩ := hkv
        obtain ⟨v, hg, hav⟩ := h om rfl k hk
        simp only [hg, Option.getD_some]
        obtain ⟨h1, h2, h3, _⟩ := ofGo_parts hav
        simp only [Att.bytes, encEntry, encAttr, name_eq hv, number_eq hv, ← nc_code, h1, h2, h3,
          padded, padding]
      exact flatMap_congr' this

/-- The attributes can be in a file. -/
theorem attsOf_ok {f : File} (hv : f.version = 1 ∨ f.version = 2 ∨ f.version = 5) {attrs : Attrs}
    (h : AttrsGood f.version attrs)
    (hl : (encAttrs f.version attrs).length < f.limit) : AttsOK f (attsOf attrs) := by
  have hnames := attsOf_names attrs
  have hb := attsOf_bytes hv h.vals
  rw [← hb] at hl
  have hmem : ∀ a ∈ attsOf attrs, (a.bytes f.version).length ≤
      ((attsOf attrs).flatMap (Att.bytes f.version)).length :=
    fun a ha => mem_flatMap_length _ ha
  have hcount := flatMap_length_ge (attsOf attrs) (Att.bytes f.version) (by
    intro a _; simp only [Att.bytes, List.length_append, beEnc_length]; omega)
  have hne : ∀ a ∈ attsOf attrs, ((attsOf attrs).flatMap (Att.bytes f.version)).length < f.limit := by
    intro a ha
    unfold list at hl
    rw [if_neg (by have := List.length_pos_of_mem ha; omega)] at hl
    simp only [List.length_append] at hl
    omega
  have hal : ∀ a : Att, a.name.length + a.value.bytes.length ≤ (a.bytes f.version).length := by
    intro a
    simp only [Att.bytes, Classic.name, padded, List.length_append]; omega
  refine ⟨?_, ?_, ?_, ?_, ?_, ?_⟩
  · cases hc : attsOf attrs with
    | nil => unfold File.limit; split <;> simp
    | cons a as =>
      have := hne a (by rw [hc]; simp)
      rw [hc] at this hcount
      omega
  · rw [hnames]
    cases attrs with
    | none => simp [keysOf]
    | some om => exact (h om rfl).1
  · intro a ha
    refine ⟨?_, ?_⟩
    · have hk : a.name ∈ keysOf attrs := by rw [← hnames]; exact List.mem_map_of_mem (f := fun x : Att => x.name) ha
      cases attrs with
      | none => simp [keysOf] at hk
      | some om =>
        obtain ⟨_, _, hn, _, _⟩ := (h om rfl).2 a.name hk
        exact hn
    · have h1 := hne a ha
      have h2 := hmem a ha
      have h3 := hal a
      omega
  · intro a ha
    obtain ⟨v, _, hav, hval⟩ := attsOf_mem h.vals ha
    have h1 := hne a ha
    have h2 := hmem a ha
    have h3 := hal a
    obtain ⟨_, p2, p3, _, _⟩ := ofGo_parts hval
    have h4 := attrCount_le hval
    rw [hav, p3] at h3
    rw [hav, p2]
    omega
  · intro a ha k bs he
    obtain ⟨v, _, hav, hval⟩ := attsOf_mem h.vals ha
    rw [hav] at he
    exact (ofGo_parts hval).2.2.2.2 k bs he
  · intro a ha hnew
    obtain ⟨v, hvv, hav, hval⟩ := attsOf_mem h.vals ha
    have hk : a.name ∈ keysOf attrs := by rw [← hnames]; exact List.mem_map_of_mem (f := fun x : Att => x.name) ha
    cases attrs with
    | none => simp [keysOf] at hk
    | some om =>
      obtain ⟨v', hg, _, _, h5⟩ := (h om rfl).2 a.name hk
      have : v' = v := by
        simp only [valueOf] at hvv
        rw [hvv] at hg; exact (Option.some.inj hg).symm
      subst this
      rw [hav, ← nc_isV5, (ofGo_parts hval).1] at hnew
      have := h5 hnew
      omega

/-! ### The file -/

theorem kind_nc (ty : NcType) : Ty.nc ty.kind = ty := by cases ty <;> rfl

/-- A variable with its place. -/
def varOf (cw : Writer) (x : SavedVar × Nat) : Var :=
  ⟨x.1.name, idsOf cw.dimIds x.1, attsOf x.1.attrs, x.1.ty.kind, sizeOf' x.1, x.2⟩

/-- The file of a writer. -/
def ofWriter (cw : Writer) : File where
  version := cw.version
  numrecs := 0
  dims := (dimsOf cw).map (fun d => ⟨d.name, d.length⟩)
  atts := attsOf cw.globalAttrs
  vars := (layout cw.vars (beginOf cw)).map (varOf cw)

theorem ofWriter_header {cw : Writer} (h : WGood cw) (hg : AttrsVals cw.globalAttrs) :
    (ofWriter cw).header = headerOf cw := by
  have hv : cw.version = 1 ∨ cw.version = 2 ∨ cw.version = 5 := by have := h.version; omega
  have hd : list cw.version 10 (ofWriter cw).dims (Dimension.bytes cw.version)
      = encDims cw.version (dimsOf cw) := by
    rw [list_dims hv]
    congr 1
    simp [ofWriter, Dimension.dim, Function.comp_def]
  have hvar : ∀ x ∈ layout cw.vars (beginOf cw), (varOf cw x).bytes cw.version
      = encVar cw.version x.1 (idsOf cw.dimIds x.1) (sizeOf' x.1) x.2 := by
    intro x hx
    have hs := h.vars _ (mem_layout hx)
    have h1 : cw.version ≠ 1 := by have := h.version; omega
    have hn : number cw.version = encNum cw.version := funext (number_eq hv)
    have hc : Ty.code x.1.ty.kind = x.1.ty.code := by rw [← nc_code, kind_nc]
    simp only [Var.bytes, varOf, encVar, name_eq hv, hn, attsOf_bytes hv hs.attrs.vals, hc, if_neg h1]
  have hvs : list cw.version 11 (ofWriter cw).vars (Var.bytes cw.version)
      = varsTag cw ++ encVars cw.version cw.dimIds (layout cw.vars (beginOf cw)) := by
    have hl : (ofWriter cw).vars.length = cw.vars.length := by simp [ofWriter, layout_length]
    unfold list varsTag encVars
    rw [hl]
    split
    · rename_i hz
      have hz' : cw.vars = [] := List.length_eq_zero_iff.mp hz
      simp [hz', layout, number_eq hv]
    · simp only [ofWriter, List.flatMap_map, number_eq hv, fieldVariable, List.append_assoc]
      rw [flatMap_congr' hvar]
  unfold File.header
  rw [show (ofWriter cw).version = cw.version from rfl, hd, hvs,
    show (ofWriter cw).atts = attsOf cw.globalAttrs from rfl, attsOf_bytes hv hg,
    show (ofWriter cw).numrecs = 0 from rfl, number_eq hv]
  simp [headerOf, frontOf]

theorem ofWriter_len {cw : Writer} {id : Nat} {d : Dim} (h : (dimsOf cw)[id]? = some d) :
    (ofWriter cw).len id = d.length ∧ (ofWriter cw).dimName id = d.name ∧
      id < (ofWriter cw).dims.length := by
  have hlt : id < (dimsOf cw).length := (List.getElem?_eq_some_iff.mp h).1
  refine ⟨?_, ?_, by simpa [ofWriter] using hlt⟩
  · simp [File.len, ofWriter, List.getElem?_map, h]
  · simp [File.dimName, ofWriter, List.getElem?_map, h]

/-- Lengths and names of the dimensions of a variable. -/
theorem ofWriter_dims {cw : Writer} (h : WGood cw) {sv : SavedVar} (hs : SvGood cw sv) :
    (idsOf cw.dimIds sv).map (ofWriter cw).len = sv.dimLengths ∧
      (idsOf cw.dimIds sv).map (ofWriter cw).dimName = sv.dimNames.take sv.dimLengths.length := by
  have hl := idsOf_length hs
  have hd := hs.dims
  constructor
  · apply List.ext_getElem
    · simp [hl]
    · intro i h1 h2
      obtain ⟨id, e1, _, e3⟩ := ids_resolve h hs i h2
      rw [List.getElem?_eq_getElem (by rw [hl]; exact h2)] at e1
      simp only [List.getElem_map, Option.some.inj e1]
      exact (ofWriter_len e3).1
  · apply List.ext_getElem
    · simp [hl]; omega
    · intro i h1 h2
      have h2' : i < sv.dimLengths.length := by simp at h2; omega
      obtain ⟨id, e1, _, e3⟩ := ids_resolve h hs i h2'
      rw [List.getElem?_eq_getElem (by rw [hl]; exact h2')] at e1
      simp only [List.getElem_map, Option.some.inj e1, List.getElem_take]
      exact (ofWriter_len e3).2.1

theorem ofWriter_fixed {cw : Writer} (h : WGood cw)
    (hpos : ∀ sv ∈ cw.vars, ∀ d ∈ sv.dimLengths, 0 < d) {x : SavedVar × Nat}
    (hx : x ∈ layout cw.vars (beginOf cw)) :
    (ofWriter cw).isRecord (varOf cw x) = false ∧
      (ofWriter cw).slab (varOf cw x) = prod x.1.dimLengths * x.1.ty.size ∧
      (ofWriter cw).shape (varOf cw x) = x.1.dimLengths := by
  have hm := mem_layout hx
  have hs := h.vars _ hm
  obtain ⟨h1, _⟩ := ofWriter_dims h hs
  have hp : ∀ id ∈ idsOf cw.dimIds x.1, 0 < (ofWriter cw).len id := by
    intro id hid
    have : (ofWriter cw).len id ∈ x.1.dimLengths := by rw [← h1]; exact List.mem_map_of_mem hid
    exact hpos _ hm _ this
  have hr : (ofWriter cw).isRecord (varOf cw x) = false := by
    unfold File.isRecord
    have hd : (varOf cw x).dims = idsOf cw.dimIds x.1 := rfl
    rw [hd]
    cases hc : idsOf cw.dimIds x.1 with
    | nil => rfl
    | cons id ids =>
      have := hp id (by rw [hc]; simp)
      simp only [beq_eq_false_iff_ne]; omega
  refine ⟨hr, ?_, ?_⟩
  · unfold File.slab
    rw [hr]
    simp only [Bool.false_eq_true, if_false, varOf, h1, ← nc_size, kind_nc]
  · have : ∀ id ∈ idsOf cw.dimIds x.1, (if (ofWriter cw).len id = 0 then (ofWriter cw).numrecs
        else (ofWriter cw).len id) = (ofWriter cw).len id := by
      intro id hid
      have := hp id hid
      rw [if_neg (by omega)]
    show List.map _ (idsOf cw.dimIds x.1) = _
    rw [List.map_congr_left this, h1]

theorem ofWriter_is {ma : Nat} {cw : Writer} (h : WGood cw) (hl : Limits ma cw)
    (hlim : (fileOf cw).length < (ofWriter cw).limit)
    (hg : AttrsGood cw.version cw.globalAttrs) (hnd : (cw.vars.map (·.name)).Nodup)
    (hpos : ∀ sv ∈ cw.vars, ∀ d ∈ sv.dimLengths, 0 < d)
    (hd : ∀ sv ∈ cw.vars, ∃ v, DataOK sv v) : (ofWriter cw).Is (fileOf cw) := by
  have hv : cw.version = 1 ∨ cw.version = 2 ∨ cw.version = 5 := by have := h.version; omega
  have hfl : (fileOf cw).length = (frontOf cw).length + (varsTag cw).length +
      (encVars cw.version cw.dimIds (layout cw.vars (beginOf cw))).length +
      (cw.vars.flatMap dataPad).length := by
    simp only [fileOf, headerOf, List.length_append]
  have hfr : (frontOf cw).length = (ascii "CDF" ++ beEnc 1 cw.version).length +
      ((encNum cw.version 0).length + ((encDims cw.version (dimsOf cw)).length +
        (encAttrs cw.version cw.globalAttrs).length)) := by
    simp only [frontOf, List.length_append]
  have h63 : (ofWriter cw).limit ≤ 2 ^ 63 := by unfold File.limit; split <;> omega
  have hnrec : (ofWriter cw).vars.filter (ofWriter cw).isRecord = [] := by
    rw [List.filter_eq_nil_iff]
    intro v hvm
    obtain ⟨x, hx, rfl⟩ := List.mem_map.mp hvm
    rw [(ofWriter_fixed h hpos hx).1]; simp
  have hnames : (ofWriter cw).vars.map (·.name) = cw.vars.map (·.name) := by
    simp only [ofWriter, List.map_map]
    rw [← layout_map cw.vars (beginOf cw), List.map_map, layout_map]
    rfl
  refine ⟨⟨hv, ?_, ?_, ?_, ?_, ?_, ?_, ?_, ?_, ?_⟩, ?_, ?_⟩
  · show 0 < _; omega
  · simpa [ofWriter, dimsOf] using hl.dims
  · intro d hdm
    simp only [ofWriter, List.mem_map] at hdm
    obtain ⟨d', hd', rfl⟩ := hdm
    have hok := dims_ok h hl hpos hd d' hd'
    have hne : ¬ (dimsOf cw).length = 0 := by
      have := List.length_pos_of_mem hd'; omega
    have he := mem_flatMap_length (encDim cw.version) hd'
    refine ⟨⟨hok.nul, ?_⟩, ?_⟩
    · have hlen : (encDims cw.version (dimsOf cw)).length ≤ (fileOf cw).length := by omega
      unfold encDims at hlen
      rw [if_neg hne] at hlen
      simp only [encDim, encName, List.length_append] at hlen he ⊢
      omega
    · simp only [dimsOf, List.mem_map] at hd'
      obtain ⟨n, hn, rfl⟩ := hd'
      obtain ⟨sv, hsm, hnt⟩ := h.used n hn
      have hs := h.vars sv hsm
      obtain ⟨i, hi, hin⟩ := List.getElem_of_mem hnt
      have hil : i < sv.dimLengths.length := by rw [List.length_take] at hi; omega
      have hr := hs.reg i hil
      rw [List.getElem_take] at hin
      rw [hin] at hr
      simp only [hr, Option.getD_some]
      obtain ⟨v, hv'⟩ := hd sv hsm
      have h1 := le_prod_of_mem (hpos sv hsm) (List.getElem_mem hil)
      have h2 := prod_le_sizeOf' sv
      have h3 := sizeOf'_le hsm hv'
      have h4 : prod sv.dimLengths ≤ prod sv.dimLengths * sv.ty.size :=
        Nat.le_mul_of_pos_right _ (NcType.size_pos _)
      omega
  · have : (ofWriter cw).dims.map (·.name) = cw.dimNames := by
      simp [ofWriter, dimsOf, Function.comp_def]
    rw [this]; exact h.nodup
  · exact attsOf_ok (f := ofWriter cw) hv hg (by show (encAttrs cw.version _).length < _; omega)
  · have hnv : cw.vars.length ≤
        (encVars cw.version cw.dimIds (layout cw.vars (beginOf cw))).length := by
      have := flatMap_length_ge (layout cw.vars (beginOf cw)) (fun x : SavedVar × Nat =>
        encVar cw.version x.1 (idsOf cw.dimIds x.1) (sizeOf' x.1) x.2) (by
          intro x _
          simp only [encVar, List.length_append, beEnc_length]; omega)
      rwa [layout_length] at this
    simp only [ofWriter, List.length_map, layout_length] at hlim ⊢
    exact Nat.lt_of_le_of_lt (by omega) hlim
  · intro v hvm
    simp only [ofWriter, List.mem_map] at hvm
    obtain ⟨x, hx, rfl⟩ := hvm
    have hm := mem_layout hx
    have hs := h.vars _ hm
    obtain ⟨w, hw⟩ := hd _ hm
    obtain ⟨hfix, _, _⟩ := ofWriter_fixed h hpos hx
    obtain ⟨hlens, _⟩ := ofWriter_dims h hs
    have hsz := sizeOf'_le hm hw
    have hoff := layout_off hd x hx
    have hfl' : (fileOf cw).length = beginOf cw + (cw.vars.flatMap dataPad).length := by
      simp only [fileOf, List.length_append, headerOf_length]
    have he : (encVar cw.version x.1 (idsOf cw.dimIds x.1) (sizeOf' x.1) x.2).length
        ≤ (fileOf cw).length := by
      have := mem_flatMap_length (fun x : SavedVar × Nat =>
        encVar cw.version x.1 (idsOf cw.dimIds x.1) (sizeOf' x.1) x.2) hx
      simp only [encVars] at hfl
      omega
    simp only [encVar, encName, List.length_append] at he
    refine ⟨⟨hs.name, ?_⟩, ?_, ?_, ?_, ?_, ?_, ?_, ?_, ?_⟩
    · show x.1.name.length < _; omega
    · show (idsOf cw.dimIds x.1).length ≤ _
      rw [idsOf_length hs]; exact hl.rank _ hm
    · intro id hid
      obtain ⟨i, hi, _, h3⟩ := ids_mem h hs hid
      exact (ofWriter_len h3).2.2
    · intro id hid
      have hid' : id ∈ idsOf cw.dimIds x.1 := List.mem_of_mem_tail hid
      have : (ofWriter cw).len id ∈ x.1.dimLengths := by rw [← hlens]; exact List.mem_map_of_mem hid'
      exact hpos _ hm _ this
    · exact attsOf_ok (f := ofWriter cw) hv hs.attrs (by show (encAttrs cw.version _).length < _; omega)
    · intro hnew
      apply hs.v5
      have : Ty.isNew x.1.ty.kind = true := hnew
      rwa [← nc_isV5, kind_nc] at this
    · have h1 : (ofWriter cw).version ≠ 1 := by
        show cw.version ≠ 1; have := h.version; omega
      rw [if_neg h1]
      show x.2 < _; omega
    · show sizeOf' x.1 < _
      unfold File.limit at hlim
      split at hlim
      · rename_i h5; rw [if_pos h5]; omega
      · rename_i h5; rw [if_neg h5]; omega
    · intro hrec
      have hfix' : (ofWriter cw).isRecord (varOf cw x) = false := hfix
      rw [hfix'] at hrec; cases hrec
  · rw [hnames]; exact hnd
  · unfold File.recsize; rw [hnrec]; simp
  · rw [ofWriter_header h hg.vals]
    exact List.prefix_append _ _
  · intro v hvm o ho
    simp only [ofWriter, List.mem_map] at hvm
    obtain ⟨x, hx, rfl⟩ := hvm
    obtain ⟨hfix, hslab, _⟩ := ofWriter_fixed h hpos hx
    have hpl : (ofWriter cw).places (varOf cw x) = [x.2] := by
      unfold File.places; rw [hfix]; rfl
    have ho' : o ∈ (ofWriter cw).places (varOf cw x) := ho
    rw [hpl, List.mem_singleton] at ho'
    subst ho'
    show x.2 + (ofWriter cw).slab (varOf cw x) ≤ _
    rw [hslab]
    have hoff := layout_off hd x hx
    have hps := prod_le_sizeOf' x.1
    have hfl' : (fileOf cw).length = beginOf cw + (cw.vars.flatMap dataPad).length := by
      simp only [fileOf, List.length_append, headerOf_length]
    omega

theorem layout_mod (svs : List SavedVar) (off : Nat) (h : off % 4 = 0) :
    ∀ x ∈ layout svs off, x.2 % 4 = 0 := by
  induction svs generalizing off with
  | nil => intro x hx; simp [layout] at hx
  | cons sv svs ih =>
    intro x hx
    simp only [layout, List.mem_cons] at hx
    rcases hx with rfl | hx
    · exact h
    · exact ih (off + sizeOf' sv) (by unfold sizeOf' roundInt64; omega) x hx

theorem ofWriter_data {cw : Writer} (h : WGood cw)
    (hpos : ∀ sv ∈ cw.vars, ∀ d ∈ sv.dimLengths, 0 < d)
    (hd : ∀ sv ∈ cw.vars, ∃ v, DataOK sv v) {x : SavedVar × Nat}
    (hx : x ∈ layout cw.vars (beginOf cw)) :
    (ofWriter cw).data (fileOf cw) (varOf cw x) = dataOf x.1 := by
  obtain ⟨hfix, hslab, _⟩ := ofWriter_fixed h hpos hx
  obtain ⟨v, hv⟩ := hd _ (mem_layout hx)
  obtain ⟨rest, hdrop, _⟩ := layout_data cw.vars (beginOf cw) (headerOf cw) (headerOf_length cw) hd x hx
  have hdrop : (fileOf cw).drop x.2 = dataPad x.1 ++ rest := hdrop
  have hpl : (ofWriter cw).places (varOf cw x) = [x.2] := by
    unfold File.places; rw [hfix]; rfl
  unfold File.data
  rw [hpl, hslab]
  simp only [List.flatMap_cons, List.flatMap_nil, List.append_nil]
  rw [hdrop, dataPad, List.append_assoc, List.take_left' hv.len]

end Verif.Cdf.Classic
