import Verif.Lemmas.CdfClassicVar
/-!
C66: files of other programs in the classic netCDF format (versions 1, 2 and 5), with and without
record variables, are read as the specification of the format says (Spec/CdfFormat.lean).
-/
namespace Verif.Cdf.Classic

/-- The attributes of an ordered map are these, in this order. -/
structure AttrsAre (as : List Att) (om : OMap GoVal) : Prop where
  keys : om.visibleKeys = as.map (·.name)
  values : ∀ a ∈ as, om.get a.name = some a.value.go
  none : ∀ k, k ∉ as.map (·.name) → om.get k = none

/-- The variables of which the reader gets the value: `_FillValue` (if there) is one number of the
type of the variable; a single character is ASCII; without records, strings are not in an array. -/
structure Readable (f : File) (bytes : Bytes) (v : Var) : Prop where
  fill : v.FillOK
  char : v.ty = none → v.dims = [] → ∀ c ∈ f.data bytes v, c.toNat < 128
  empty : v.ty = none → f.numrecs = 0 → f.isRecord v = true → v.dims.length ≤ 2

/-- **C66.** Every complete file in the classic format opens. The names and lengths of the
dimensions, the global attributes, the variables with their dimensions, attributes, shapes and
values are those that the format specification gives to the bytes, in the order of the file; other
names are not found.

Partial: the memory suffices; variables are `Readable` and `GetDimension` is for dimensions other
than the unlimited one, see the negations below. -/
theorem C66_classic_partial {ma : Nat} {f : File} {bytes : Bytes} (hf : f.Is bytes)
    (hlen : bytes.length < 2 ^ 63) (hma : bytes.length ≤ ma) (hrec : f.numrecs * 16 ≤ ma) :
    ∃ h, openCdf ma bytes = .ok h ∧
      h.listDimensions = f.dims.map (·.name) ∧
      (∀ d ∈ f.dims, d.len ≠ 0 → h.getDimension d.name = some d.len) ∧
      (∀ k, k ∉ f.dims.map (·.name) → h.getDimension k = none) ∧
      h.attributes.visibleKeys = (f.atts.map (·.name)).filter (· ≠ ascii "_NCProperties") ∧
      (∀ a ∈ f.atts, h.attributes.get a.name = some a.value.go) ∧
      (∀ k, k ∉ f.atts.map (·.name) → h.attributes.get k = none) ∧
      h.listVariables = f.vars.map (·.name) ∧
      (∀ v ∈ f.vars, ∃ g, getVarCommon h v.name = .ok g ∧
        g.shape = (f.shape v).map (fun (n : Nat) => (n : Int)) ∧ g.dimNames = v.dims.map f.dimName ∧
        g.ty.kind = v.ty ∧ AttrsAre v.atts g.vr.attrs) ∧
      (∀ v ∈ f.vars, Readable f bytes v → ∃ w attrs, getVariable ma h bytes v.name
          = .ok ⟨w, v.dims.map f.dimName, some attrs⟩ ∧ AttrsAre v.atts attrs ∧
        Holds v.ty (f.shape v) (f.data bytes v) w) ∧
      (∀ k, k ∉ f.vars.map (·.name) → getVariable ma h bytes k = .err .notFound) := by
  obtain ⟨rest, hb⟩ := hf.header
  obtain ⟨r, s, hread, h1, h2⟩ := reads_file (ma := ma) hf.ok (by
    have : bytes.length = f.header.length + rest.length := by rw [← hb, List.length_append]
    omega)
  have hattrs : ∀ v ∈ f.vars, AttrsAre v.atts (attsBack v.atts) := by
    intro v hv
    have hd := (hf.ok.vars v hv).atts.distinct
    exact ⟨rfl, fun a ha => attsBack_get hd ha, fun k hk => attsBack_none hk⟩
  refine ⟨f.hdr r s, ?_, ?_, ?_, ?_, ?_, ?_, ?_, ?_, ?_, ?_, ?_⟩
  · unfold openCdf; rw [← hb, hread]
  · simp [Hdr.listDimensions, File.hdr, Dimension.dim, Function.comp_def]
  · intro d hd _
    have hn := hf.ok.dimNames
    have hfind : ∀ ds : List Dimension, (ds.map (·.name)).Nodup → d ∈ ds →
        ((ds.map Dimension.dim).find? (fun x => x.name == d.name)).map (·.length) = some d.len := by
      intro ds
      induction ds with
      | nil => intro _ h; simp at h
      | cons x ds ih =>
        intro hn hm
        simp only [List.map_cons, List.nodup_cons] at hn
        simp only [List.map_cons, List.find?_cons]
        rcases List.mem_cons.mp hm with rfl | hm
        · have : (d.dim.name == d.name) = true := by simp [Dimension.dim]
          rw [this]; rfl
        · have : (x.dim.name == d.name) = false := by
            simp only [Dimension.dim, beq_eq_false_iff_ne]
            intro e
            exact hn.1 (by rw [e]; exact List.mem_map_of_mem (f := fun x : Dimension => x.name) hm)
          rw [this]; exact ih hn.2 hm
    exact hfind f.dims hn hd
  · intro k hk
    simp only [Hdr.getDimension, File.hdr, Option.map_eq_none_iff, List.find?_eq_none, List.mem_map]
    rintro _ ⟨d, hd, rfl⟩
    simp only [Dimension.dim, beq_iff_eq]
    intro e
    exact hk (List.mem_map.mpr ⟨d, hd, e⟩)
  · show (f.atts.map (·.name)).filter (fun k => ¬ k ∈ [ncpKey]) = _
    apply List.filter_congr
    intro k _
    simp [ncpKey]
  · intro a ha
    exact attsBack_get hf.ok.atts.distinct ha
  · intro k hk
    exact attsBack_none (as := f.atts) hk
  · have := (addAll_visible OMap.empty (f.vars.map f.keep) rfl).1
    show (addAll OMap.empty _).visible = _
    rw [this]
    simp [OMap.empty, File.keep, Function.comp_def]
  · intro v hv
    obtain ⟨g, hg, hvr, hty, hdl, hdn, _, _⟩ := getter_eq hf.ok r s hv
    refine ⟨g, hg, ?_, hdn, by rw [hty, nc_kind], by rw [hvr]; exact hattrs v hv⟩
    unfold Getter.shape
    rw [hdl]
    apply List.map_congr_left
    intro d hd
    apply w64_nat
    simp only [File.shape, List.mem_map] at hd
    obtain ⟨id, hid, rfl⟩ := hd
    have hn := (limit_num hf.ok.version hf.ok.numrecs).2
    split
    · exact hn
    · have hlt := (hf.ok.vars v hv).ids id hid
      have := (hf.ok.dims _ (List.getElem_mem hlt)).2
      have h3 := (limit_num hf.ok.version this).2
      simpa [File.len, hlt] using h3
  · intro v hv hr
    obtain ⟨w, hw1, hw2⟩ := getVariable_eq hf hlen hma hrec h1 h2 hv hr.fill hr.char hr.empty
    exact ⟨w, _, hw1, hattrs v hv, hw2⟩
  · intro k hk
    have hg : (f.hdr r s).vars.get k = none := by
      have := addAll_get_other OMap.empty (f.vars.map f.keep) k (by
        simpa [File.keep, Function.comp_def] using hk)
      rw [show (f.hdr r s).vars = addAll OMap.empty (f.vars.map f.keep) from rfl, this]
      rfl
    unfold getVariable getVarCommon
    rw [hg]
    rfl

/-! ### Examples -/

/-- A check that a file is proper, for examples. -/
def checkAtts (f : File) (as : List Att) : Bool :=
  decide (as.length < f.limit) && decide (as.map (·.name)).Nodup &&
  as.all (fun a => a.name.all (· ≠ 0) && decide (a.name.length < f.limit) &&
    decide (a.value.count < f.limit) && (!a.value.ty.isNew || f.version == 5) &&
    (match a.value with
      | .text _ => true
      | .numbers k bs => bs.all (fun b => b < 256 ^ Ty.size (some k))))

theorem checkAtts_ok {f : File} {as : List Att} (h : checkAtts f as = true) : AttsOK f as := by
  simp only [checkAtts, Bool.and_eq_true, decide_eq_true_eq, List.all_eq_true, Bool.or_eq_true,
    Bool.not_eq_true', beq_iff_eq] at h
  obtain ⟨⟨h1, h2⟩, h3⟩ := h
  refine ⟨h1, h2, fun a ha => ⟨(h3 a ha).1.1.1.1, (h3 a ha).1.1.1.2⟩, fun a ha => (h3 a ha).1.1.2, ?_, ?_⟩
  · intro a ha k bs hk b hb
    have := (h3 a ha).2
    rw [hk] at this
    simpa using List.all_eq_true.mp this b hb
  · intro a ha h5
    rcases (h3 a ha).1.2 with h6 | h6
    · rw [h5] at h6; cases h6
    · exact h6

/-- A check that a variable is proper. -/
def checkVar (f : File) (v : Var) : Bool :=
  v.name.all (· ≠ 0) && decide (v.name.length < f.limit) && decide (v.dims.length ≤ 1024) &&
  v.dims.all (· < f.dims.length) && v.dims.tail.all (fun id => 0 < f.len id) && checkAtts f v.atts &&
  (!v.ty.isNew || f.version == 5) && decide (v.begin_ < if f.version = 1 then 2 ^ 32 else 2 ^ 63) &&
  decide (v.vsize < if f.version = 5 then 2 ^ 64 else 2 ^ 32) &&
  (!f.isRecord v || (decide (v.vsize = up4 (f.slab v)) && decide (v.vsize < f.limit)))

theorem checkVar_ok {f : File} {v : Var} (h : checkVar f v = true) : VarOK f v := by
  simp only [checkVar, Bool.and_eq_true, decide_eq_true_eq, List.all_eq_true, Bool.or_eq_true,
    Bool.not_eq_true', beq_iff_eq] at h
  obtain ⟨⟨⟨⟨⟨⟨⟨⟨⟨h1, h2⟩, h3⟩, h4⟩, h5⟩, h6⟩, h7⟩, h8⟩, h9⟩, h10⟩ := h
  refine ⟨⟨h1, h2⟩, h3, h4, h5, checkAtts_ok h6, ?_, h8, h9, ?_⟩
  · intro hn; rcases h7 with h | h
    · rw [hn] at h; cases h
    · exact h
  · intro hn; rcases h10 with h | h
    · rw [hn] at h; cases h
    · exact h

/-- A check that a file is proper and complete. -/
def check (f : File) (bytes : Bytes) : Bool :=
  (f.version == 1 || f.version == 2 || f.version == 5) && decide (f.numrecs < f.limit) &&
  decide (f.dims.length ≤ 1024) &&
  f.dims.all (fun d => d.name.all (· ≠ 0) && decide (d.name.length < f.limit) && decide (d.len < f.limit)) &&
  decide (f.dims.map (·.name)).Nodup && checkAtts f f.atts && decide (f.vars.length < f.limit) &&
  f.vars.all (checkVar f) && decide (f.vars.map (·.name)).Nodup && decide (f.recsize < 2 ^ 63) &&
  f.header.isPrefixOf bytes &&
  f.vars.all (fun v => (f.places v).all (fun o => o + f.slab v ≤ bytes.length))

theorem check_is {f : File} {bytes : Bytes} (h : check f bytes = true) : f.Is bytes := by
  simp only [check, Bool.and_eq_true, decide_eq_true_eq, List.all_eq_true, Bool.or_eq_true,
    beq_iff_eq, List.isPrefixOf_iff_prefix] at h
  obtain ⟨⟨⟨⟨⟨⟨⟨⟨⟨⟨⟨h1, h2⟩, h3⟩, h4⟩, h5⟩, h6⟩, h7⟩, h8⟩, h9⟩, h10⟩, h11⟩, h12⟩ := h
  refine ⟨⟨by omega, h2, h3, ?_, h5, checkAtts_ok h6, h7, fun v hv => checkVar_ok (h8 v hv), h9, h10⟩,
    h11, h12⟩
  intro d hd
  exact ⟨⟨(h4 d hd).1.1, (h4 d hd).1.2⟩, (h4 d hd).2⟩

/-- A version 1 file: an unlimited dimension with 3 records, a fixed one; a coordinate and two
record variables (one of which needs padding), a text and a numeric attribute. -/
def exFile : File where
  version := 1
  numrecs := 3
  dims := [⟨ascii "time", 0⟩, ⟨ascii "x", 2⟩]
  atts := [⟨ascii "title", .text (ascii "demo")⟩, ⟨ascii "_NCProperties", .text (ascii "v=2")⟩,
    ⟨ascii "levels", .numbers .i16 [1, 2, 3]⟩]
  vars := [⟨ascii "x", [1], [⟨ascii "scale", .numbers .f32 [0x3f800000]⟩], some .i32, 8, 400⟩,
    ⟨ascii "t", [0], [], some .f64, 8, 408⟩,
    ⟨ascii "flag", [0, 1], [⟨ascii "_FillValue", .numbers .i8 [0x81]⟩], some .i8, 4, 416⟩,
    ⟨ascii "name", [], [], none, 4, 444⟩]

/-- Its bytes. -/
def exBytes : Bytes :=
  exFile.header ++ List.replicate (400 - exFile.header.length) 0 ++ beEnc 4 10 ++ beEnc 4 20 ++
    (beEnc 8 1 ++ [1, 2, 0, 0]) ++ (beEnc 8 2 ++ [3, 4, 0, 0]) ++ (beEnc 8 3 ++ [5, 6, 0, 0]) ++ ascii "Q"

theorem exFile_is : exFile.Is exBytes := check_is (by decide +kernel)

/-- What the reader makes of the example: the records of `t` and `flag` are 12 bytes apart. -/
example : ∃ h, openCdf 445 exBytes = .ok h ∧
    h.listVariables = [ascii "x", ascii "t", ascii "flag", ascii "name"] ∧
    ∃ w attrs, getVariable 445 h exBytes (ascii "flag")
      = .ok ⟨w, [ascii "time", ascii "x"], some attrs⟩ ∧
      Holds (some .i8) [3, 2] [1, 2, 3, 4, 5, 6] w := by
  have hl : exBytes.length = 445 := by decide +kernel
  obtain ⟨h, h1, _, _, _, _, _, _, h2, _, h3, _⟩ := C66_classic_partial (ma := 445) exFile_is
    (by rw [hl]; decide) (by rw [hl]; decide) (by decide)
  refine ⟨h, h1, h2, ?_⟩
  obtain ⟨w, attrs, h4, _, h5⟩ := h3 ⟨ascii "flag", [0, 1],
    [⟨ascii "_FillValue", .numbers .i8 [0x81]⟩], some .i8, 4, 416⟩ (by simp [exFile]) (by
      refine ⟨?_, by simp, by simp⟩
      intro a ha _
      simp only [List.mem_singleton] at ha
      subst ha
      exact ⟨_, rfl⟩)
  refine ⟨w, attrs, h4, ?_⟩
  have e : exFile.data exBytes ⟨ascii "flag", [0, 1],
    [⟨ascii "_FillValue", .numbers .i8 [0x81]⟩], some .i8, 4, 416⟩ = [1, 2, 3, 4, 5, 6] := by
    decide +kernel
  rw [e] at h5
  exact h5

/-! ### Negations -/

/-- A file with one variable after a header of at most 200 bytes. -/
def oneVar (numrecs : Nat) (dims : List Dimension) (v : Var) : File :=
  ⟨1, numrecs, dims, [], [{ v with begin_ := 200 }]⟩

/-- Its bytes. -/
def oneBytes (f : File) (data : Bytes) : Bytes :=
  f.header ++ List.replicate (200 - f.header.length) 0 ++ data

/-- A variable of two characters with the usual `_FillValue`, a text of one character. -/
def charFill : File :=
  oneVar 0 [⟨ascii "n", 2⟩] ⟨ascii "c", [0], [⟨ascii "_FillValue", .text (ascii "*")⟩], none, 4, 0⟩

/-- **C66 (negation, fill values of characters).** The `_FillValue` of a character variable is a
text of one character in the format; the reader insists on a Go `byte`, and `GetVariable` crashes.
The data are all there: no fill value is needed. -/
theorem C66_negation_char_fill : ∃ (f : File) (bytes : Bytes), f.Is bytes ∧ ∃ v ∈ f.vars,
    f.data bytes v = ascii "ab" ∧ ∃ h, openCdf 1000 bytes = .ok h ∧
      getVariable 1000 h bytes v.name = .panic := by
  refine ⟨charFill, oneBytes charFill (ascii "ab"), check_is (by decide +kernel), _,
    List.mem_singleton.mpr rfl, by decide +kernel, ?_⟩
  have : (match openCdf 1000 (oneBytes charFill (ascii "ab")) with
    | .ok h => (match getVariable 1000 h (oneBytes charFill (ascii "ab")) (ascii "c") with
      | .panic => true | _ => false)
    | _ => false) = true := by decide +kernel
  split at this
  · rename_i h ho
    refine ⟨h, ho, ?_⟩
    show getVariable 1000 h (oneBytes charFill (ascii "ab")) (ascii "c") = _
    split at this
    · assumption
    · cases this
  · cases this

/-- A variable along the unlimited dimension, of which there are two. -/
def unlimited : File := oneVar 2 [⟨ascii "time", 0⟩] ⟨ascii "t", [0], [], some .i32, 4, 0⟩

/-- **C66 (negation, unlimited dimension).** `GetDimension` gives 0 for the unlimited dimension,
although the variable has a length of 2 along it. -/
theorem C66_negation_unlimited : ∃ (f : File) (bytes : Bytes), f.Is bytes ∧ ∃ v ∈ f.vars,
    f.shape v = [2] ∧ ∃ h, openCdf 1000 bytes = .ok h ∧
      ∃ g, getVarCommon h v.name = .ok g ∧ g.shape = [2] ∧ g.dimNames = [ascii "time"] ∧
        h.getDimension (ascii "time") = some 0 := by
  have hi : unlimited.Is (oneBytes unlimited [0, 0, 0, 1, 0, 0, 0, 2]) := check_is (by decide +kernel)
  refine ⟨unlimited, oneBytes unlimited [0, 0, 0, 1, 0, 0, 0, 2], hi, _, List.mem_singleton.mpr rfl,
    by decide +kernel, ?_⟩
  obtain ⟨h, h1, _, _, _, _, _, _, _, h2, _, _⟩ := C66_classic_partial (ma := 1000) hi
    (by decide +kernel) (by decide +kernel) (by decide +kernel)
  obtain ⟨g, g1, g2, g3, _⟩ := h2 _ (List.mem_singleton.mpr rfl)
  refine ⟨h, h1, g, g1, ?_, ?_, ?_⟩
  · rw [g2]; decide +kernel
  · rw [g3]; decide +kernel
  · have : (match openCdf 1000 (oneBytes unlimited [0, 0, 0, 1, 0, 0, 0, 2]) with
      | .ok h => h.getDimension (ascii "time") == some 0
      | _ => false) = true := by decide +kernel
    rw [h1] at this
    simpa using this

/-- A single character. -/
def oneChar : File := oneVar 0 [] ⟨ascii "c", [], [], none, 4, 0⟩

/-- **C66 (negation, single characters).** A single character that is not ASCII becomes another
string: its UTF-8 encoding as a code point. -/
theorem C66_negation_char : ∃ (f : File) (bytes : Bytes), f.Is bytes ∧ ∃ v ∈ f.vars, ∃ h, openCdf 1000 bytes = .ok h ∧
    ∃ w ds as, getVariable 1000 h bytes v.name = .ok ⟨w, ds, as⟩ ∧
      ¬ Holds v.ty (f.shape v) (f.data bytes v) w := by
  refine ⟨oneChar, oneBytes oneChar [0xe9], check_is (by decide +kernel), _,
    List.mem_singleton.mpr rfl, ?_⟩
  have : (match openCdf 1000 (oneBytes oneChar [0xe9]) with
    | .ok h => (match getVariable 1000 h (oneBytes oneChar [0xe9]) (ascii "c") with
      | .ok ⟨.str s, _, _⟩ => s == [0xc3, 0xa9] | _ => false)
    | _ => false) = true := by decide +kernel
  split at this
  · rename_i h ho
    split at this
    · rename_i s ds as hg
      refine ⟨h, ho, _, ds, as, hg, ?_⟩
      have hs : s = [0xc3, 0xa9] := by simpa using this
      have hd : oneChar.data (oneBytes oneChar [0xe9])
        { name := ascii "c", dims := [], atts := [], ty := none, vsize := 4, begin_ := 200 } = [0xe9] := by
        decide +kernel
      show ¬ Holds none [] _ _
      rw [hd, hs]
      simp [Holds]
    · cases this
  · cases this

/-- Strings of three characters in an array along the unlimited dimension, without records. -/
def noRecords : File :=
  oneVar 0 [⟨ascii "time", 0⟩, ⟨ascii "n", 2⟩, ⟨ascii "s", 3⟩] ⟨ascii "c", [0, 1, 2], [], none, 8, 0⟩

/-- **C66 (negation, no records).** Without records an array of arrays of strings is read as an
array of another Go type, `[][][]uint8` instead of `[][]string`. -/
theorem C66_negation_no_records : ∃ (f : File) (bytes : Bytes), f.Is bytes ∧ ∃ v ∈ f.vars, ∃ h,
    openCdf 1000 bytes = .ok h ∧ ∃ w ds as, getVariable 1000 h bytes v.name = .ok ⟨w, ds, as⟩ ∧
      ¬ Holds v.ty (f.shape v) (f.data bytes v) w := by
  refine ⟨noRecords, oneBytes noRecords [], check_is (by decide +kernel), _,
    List.mem_singleton.mpr rfl, ?_⟩
  have : (match openCdf 1000 (oneBytes noRecords []) with
    | .ok h => (match getVariable 1000 h (oneBytes noRecords []) (ascii "c") with
      | .ok ⟨.slice (.slice (.slice (.num .u8))) [], _, _⟩ => true | _ => false)
    | _ => false) = true := by decide +kernel
  split at this
  · rename_i h ho
    split at this
    · rename_i ds as hg
      refine ⟨h, ho, _, ds, as, hg, ?_⟩
      show ¬ Holds none [0, 2, 3] _ _
      unfold Holds
      rw [if_neg (by simp)]
      rintro ⟨ds', L, he, hr, _⟩
      obtain ⟨rfl, rfl⟩ : ds' = [0, 2] ∧ L = 3 := by
        have := List.append_inj' (s₁ := [0, 2]) (t₁ := [3]) he rfl
        simp at this
        exact ⟨this.1.symm, this.2.symm⟩
      obtain ⟨xs, hx, _⟩ := hr
      simp [tyNest] at hx
    · cases this
  · cases this

end Verif.Cdf.Classic
