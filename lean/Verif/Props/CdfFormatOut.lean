import Verif.Lemmas.CdfClassicOut
import Verif.Props.CdfFormat
import Verif.Props.CdfRoundEx
/-!
C67: files of the CDF writer follow the specification of the classic format (Spec/CdfFormat.lean),
independently of the reader.
-/
namespace Verif.Cdf.Classic

/-- The list of attributes is that of the given map. -/
structure AttsAs (attrs : Attrs) (as : List Att) : Prop where
  keys : as.map (·.name) = keysOf attrs
  values : ∀ a ∈ as, ∃ v, valueOf attrs a.name = some v ∧ a.value.go = unwrap1 v

/-- **C67.** After supported calls, all successful, `Close` writes a complete file of the classic
format, version 2 or 5, without unlimited dimension: its variables are those that were added, in
order, with the given dimensions, attributes and values (strings padded); its global attributes are
those of the last `AddAttributes`. The data of each variable starts at a multiple of four, and its
size in the header is right.

Partial: as for C01. -/
theorem C67_written_format_partial (u : UniTables) (calls : List Call) (cw : Writer)
    (h : Session u calls cw) (ma : Nat) (file : Bytes) (hc : cw.writeAll = .ok file)
    (hf : Fits ma cw file) :
    ∃ f : File, f.Is file ∧ (f.version = 2 ∨ f.version = 5) ∧ f.numrecs = 0 ∧
      (∀ d ∈ f.dims, 0 < d.len) ∧
      AttsAs (lastAttributes calls) f.atts ∧ f.vars.map (·.name) = addedNames calls ∧
      (∀ v ∈ f.vars, v.begin_ % 4 = 0 ∧ v.vsize = up4 (f.slab v)) ∧
      ∀ name vr, Call.addVar name vr ∈ calls → ∀ shape w,
        Supported (!vr.dimensions.isEmpty) vr.values shape w →
        ∃ v ∈ f.vars, v.name = name ∧ f.shape v = shape ∧ Holds v.ty shape (f.data file v) w ∧
          AttsAs vr.attributes v.atts ∧
          ∀ i, i < shape.length → i < vr.dimensions.length →
            (v.dims.map f.dimName)[i]? = vr.dimensions[i]? := by
  rw [h.file] at hc
  cases hc
  have hi := h.inv
  have hnd : (cw.vars.map (·.name)).Nodup := by rw [hi.names]; exact h.distinct
  have hlim : (fileOf cw).length < (ofWriter cw).limit := by
    unfold File.limit
    show _ < if cw.version = 5 then _ else _
    rcases hf.size with h1 | ⟨h1, h2⟩
    · split <;> omega
    · rw [if_pos h1]; exact h2
  have hatts : ∀ attrs, AttrsVals attrs → AttsAs attrs (attsOf attrs) := by
    intro attrs hv
    refine ⟨attsOf_names attrs, ?_⟩
    intro a ha
    obtain ⟨v, h1, h2, h3⟩ := attsOf_mem hv ha
    exact ⟨v, h1, by rw [h2, (ofGo_parts h3).2.2.2.1]⟩
  refine ⟨ofWriter cw, ofWriter_is hi.good hf.limits hlim h.good hnd hi.pos hi.data,
    hi.good.version, rfl, ?_, ?_, ?_, ?_, ?_⟩
  · intro d hdm
    simp only [ofWriter, dimsOf, List.map_map, List.mem_map, Function.comp_apply] at hdm
    obtain ⟨n, hn, rfl⟩ := hdm
    obtain ⟨sv, hsm, hnt⟩ := hi.good.used n hn
    have hs := hi.good.vars sv hsm
    obtain ⟨i, hi', hin⟩ := List.getElem_of_mem hnt
    have hil : i < sv.dimLengths.length := by rw [List.length_take] at hi'; omega
    have hr := hs.reg i hil
    rw [List.getElem_take] at hin
    rw [hin] at hr
    simp only [hr, Option.getD_some]
    exact hi.pos sv hsm _ (List.getElem_mem hil)
  · rw [← hi.globals]; exact hatts _ h.good.vals
  · rw [← hi.names]
    simp only [ofWriter, List.map_map]
    rw [← layout_map cw.vars (beginOf cw), List.map_map, layout_map]
    rfl
  · intro v hvm
    simp only [ofWriter, List.mem_map] at hvm
    obtain ⟨x, hx, rfl⟩ := hvm
    refine ⟨?_, ?_⟩
    · have hm : beginOf cw % 4 = 0 := by
        rw [← headerOf_length]
        have h1 := frontOf_mod cw
        have h2 := varsTag_mod cw
        have h3 := encVars_mod cw.version cw.dimIds (layout cw.vars (beginOf cw))
        simp only [headerOf, List.length_append]; omega
      exact layout_mod cw.vars _ hm x hx
    · show sizeOf' x.1 = up4 ((ofWriter cw).slab (varOf cw x))
      rw [(ofWriter_fixed hi.good hi.pos hx).2.1]
      unfold sizeOf' roundInt64 up4; omega
  · intro name vr hm shape w hsup
    obtain ⟨sv, hsv, hs⟩ := hi.saved name vr hm
    obtain ⟨hshape, hdata, hraw⟩ := hs.back shape w hsup
    obtain ⟨x, hx, rfl⟩ : ∃ x ∈ layout cw.vars (beginOf cw), x.1 = sv := by
      rw [← layout_map cw.vars (beginOf cw)] at hsv
      obtain ⟨x, hx, he⟩ := List.mem_map.mp hsv
      exact ⟨x, hx, he⟩
    have hsg := hi.good.vars _ hsv
    refine ⟨varOf cw x, List.mem_map_of_mem hx, hs.name, ?_, ?_, ?_, ?_⟩
    · rw [(ofWriter_fixed hi.good hi.pos hx).2.2, hshape]
    · rw [ofWriter_data hi.good hi.pos hi.data hx]
      show Holds x.1.ty.kind shape _ w
      have hback := hdata.back
      have hlen := hdata.len
      rw [hshape] at hback hlen
      cases hsh : shape with
      | nil =>
        rw [hsh] at hback hlen
        simp only [prod, Nat.one_mul] at hlen
        cases hk : x.1.ty.kind with
        | none =>
          simp only [nestV, hk] at hback
          rw [hsh] at hsup
          unfold Holds
          rw [if_pos ⟨rfl, rfl⟩]
          rw [hraw, ← hback]
          simp only [rawBytes]
        | some k =>
          have := scalar_holds x.1.ty.kind (dataOf x.1) (by rw [hlen, ← nc_size, kind_nc])
            (by rw [hk]; intro h0; cases h0)
          rw [kind_nc] at this
          rw [← hk, ← hback]
          exact this
      | cons d ds =>
        rw [hsh] at hback hlen
        have := array_holds x.1.ty.kind (d :: ds) (dataOf x.1) (by simp)
          (by rw [hlen, ← nc_size, kind_nc])
        rw [kind_nc] at this
        rw [← hback]
        exact this
    · show AttsAs vr.attributes (attsOf x.1.attrs)
      rw [← hs.attrs]
      exact hatts _ hsg.attrs.vals
    · intro i h1 h2
      show ((idsOf cw.dimIds x.1).map (ofWriter cw).dimName)[i]? = _
      rw [(ofWriter_dims hi.good hsg).2]
      obtain ⟨extra, he⟩ := hs.dims
      rw [List.getElem?_take, hshape, if_pos h1, he, List.getElem?_append_left h2]

/-- The file of the example session. -/
example : ∃ (cw : Writer) (file : Bytes) (f : File), cw.writeAll = .ok file ∧ f.Is file ∧
    f.vars.map (·.name) = [ascii "a", ascii "s", ascii "n"] ∧
    ∃ v ∈ f.vars, v.name = ascii "a" ∧ f.shape v = [2, 3] ∧
      Holds v.ty [2, 3] (f.data file v) exArray := by
  obtain ⟨cw, file, hs, hw, hf⟩ := exSession
  obtain ⟨f, h1, _, _, _, _, h2, _, h3⟩ :=
    C67_written_format_partial u0 exCalls cw hs 10000 file hw hf
  obtain ⟨v, h4, h5, h6, h7, _⟩ := h3 (ascii "a") _ (by simp [exCalls]; left; rfl) _ _
    (exArray_supported _)
  exact ⟨cw, file, f, hw, h1, h2, v, h4, h5, h6, h7⟩

/-! ### Negations -/

/-- The version and the number of records of a file with a given start. -/
theorem is_start {f : File} {bytes : Bytes} (h : f.Is bytes)
    (hb : bytes.take 8 = ascii "CDF" ++ [2] ++ [0, 0, 0, 0]) : f.version = 2 ∧ f.numrecs = 0 := by
  obtain ⟨rest, hr⟩ := h.header
  have hn := h.ok.numrecs
  rw [← hr] at hb
  unfold File.header at hb
  rw [List.append_assoc] at hb
  have h4 : f.version = 2 := by
    have h1 := congrArg (List.take 4) hb
    rw [List.take_take, List.take_left' (by simp [ascii]), List.take_left' (by simp [ascii])] at h1
    have h2 := List.append_cancel_left h1
    have h3 := beDec_beEnc_of_lt (k := 1) (n := f.version) (by have := h.ok.version; omega)
    rw [h2] at h3
    exact h3.symm
  refine ⟨h4, ?_⟩
  rw [h4] at hb
  have hb := congrArg (List.drop 4) hb
  rw [List.drop_take, List.drop_left' (by simp [ascii]), List.drop_left' (by simp [ascii]),
    List.append_assoc, List.take_left' (by simp [number])] at hb
  have h3 := beDec_beEnc_of_lt (k := 4) (n := f.numrecs) (by
    unfold File.limit at hn; rw [if_neg (by omega)] at hn; omega)
  have hb : beEnc 4 f.numrecs = [0, 0, 0, 0] := hb
  rw [hb] at h3
  exact h3.symm

/-- **C67 (negation).** With an attribute of one of the types of version 5, and no variable of such a
type, the file is not a file of the format. -/
theorem C67_negation_v5_attribute : ∃ calls cw file,
    runAll u0 calls Writer.init = some cw ∧ cw.writeAll = .ok file ∧ ∀ f : File, ¬ f.Is file := by
  obtain ⟨cw, file, h1, h2, h3⟩ := runWitness
    [.addAttributes (attrMap [(ascii "a", .num .u8 1)])]
    (fun _ file => decide (file.take 8 = ascii "CDF" ++ [2] ++ [0, 0, 0, 0]) &&
      decide (file.length ≤ 1000) && match openCdf 1000 file with
      | .ok _ => false
      | _ => true) (by decide +kernel)
  refine ⟨_, cw, file, h1, h2, ?_⟩
  intro f hf
  simp only [Bool.and_eq_true, decide_eq_true_eq] at h3
  obtain ⟨⟨hs, hl⟩, h3⟩ := h3
  obtain ⟨hver, hrec⟩ := is_start hf hs
  obtain ⟨h, ho, _⟩ := C66_classic_partial (ma := 1000) hf (by omega) hl (by rw [hrec]; omega)
  rw [ho] at h3
  cases h3

/-- **C67 (negation, empty slices).** The dimension of an empty slice is the unlimited dimension of
the file. -/
theorem C67_negation_zero_length : ∃ calls cw file,
    runAll u0 calls Writer.init = some cw ∧ cw.writeAll = .ok file ∧
    ∃ f : File, f.Is file ∧ f.dims = [⟨ascii "d", 0⟩] ∧ f.vars.map f.isRecord = [true] := by
  obtain ⟨cw, file, h1, h2, h3⟩ := runWitness
    [.addVar (ascii "v") ⟨.slice (.num .i32) [], [ascii "d"], none⟩]
    (fun _ file => check ⟨2, 0, [⟨ascii "d", 0⟩], [], [⟨ascii "v", [0], [], some .i32, 4, 84⟩]⟩ file)
    (by decide +kernel)
  exact ⟨_, cw, file, h1, h2, _, check_is h3, rfl, by decide +kernel⟩

end Verif.Cdf.Classic
