import Verif.Lemmas.H5Value
/-!
C35: attribute values in HDF5 files.
-/
namespace Verif.H5

/-- C35, part. An attribute value goes through the whole writer and reader: its strings are collected
in the heap (after other strings: `h0`), later its sequences (`h1`), the heap is completed (`H`) and
written at the end of the buffer `buf`, then the attribute message is built; the reader parses the
message and decodes the value with the heap it finds in the file. The name, the type and the value
are those that were given, except that a one-element slice is returned as its element.

Not covered: values with a zero length that is not in the last dimension, empty slices of floating
point numbers, arrays of sequences of which some group has rows of one length only, names and
strings with NUL (these fail: see the negations below); heaps with 65536 objects
(`C32_negation_65536_objects`); compounds, enumerations and opaque values. -/
theorem C35_attribute_round_trip_partial (name : Bytes) (v : GoVal) (h0 h1 : Heap)
    (hv : AttrOK v) (hn : (0 : UInt8) ∉ name) (hnl : name.length < 65535)
    (hw : ∀ s i, h0.indices.get s = some i → 0 < i ∧ h0.objects[i - 1]? = some s)
    (hle : (collectStrings h0 v).Le h1) :
    ∃ h2 idxs, collectAttrVlen false h1 v = .ok (h2, idxs) ∧
      ∀ (H : Heap) (buf post : Bytes), h2.Le H → H.objects.length < 65536 →
        H.addr = (writeGlobalHeap buf H.objects).2 →
        ((writeGlobalHeap buf H.objects).1 ++ post).length < 2 ^ 63 →
        ∃ msg a s w, attrMessage false (some H) idxs name v = .ok msg ∧
          readAttribute ⟨0, msg⟩ = .ok (a, s) ∧ s.rem = [] ∧ a.name = name ∧
          (∀ fill, attrValue (heapLookup ((writeGlobalHeap buf H.objects).1 ++ post)) fill a = .ok w) ∧
          Unwrapped v w := by
  obtain ⟨h2, idxs, hc, -, -, henc⟩ := attr_collect v hv h0 h1 hw hle
  refine ⟨h2, idxs, hc, ?_⟩
  intro H buf post hH hfew haddr hlen
  have hblock : ((writeGlobalHeap buf H.objects).1 ++ post).drop H.addr =
      heapBlock H.objects ++ post := by
    rw [haddr, writeGlobalHeap_eq]
    simp only
    rw [List.append_assoc, List.drop_left]
  obtain ⟨t, dims, data, he⟩ := henc H _ hH (heapHas_block _ H post hlen hblock hfew)
  obtain ⟨d, hr, hval, -⟩ := he.round name hv.common hn hnl
  refine ⟨_, _, _, undoScalar v, he.message name, hr, rfl, rfl,
    fun fill => by simp only [attrValue, hval fill, Res.map], ?_⟩
  unfold undoScalar Unwrapped
  split <;> simp

/-- A 2x2 array of sequences of different lengths, one of them empty. -/
def exRagged : GoVal :=
  .slice (.slice (.slice (.num .i16)))
    [.slice (.slice (.num .i16)) [.slice (.num .i16) [.num .i16 7], .slice (.num .i16) []],
     .slice (.slice (.num .i16)) [.slice (.num .i16) [.num .i16 1, .num .i16 2],
       .slice (.num .i16) [.num .i16 3]]]

example : AttrOK exRagged := by
  refine .ragged .i16 [2, 2] _ ?_ ⟨by decide, by decide⟩ (by decide) ?_ (by decide)
  · refine ⟨_, rfl, rfl, ?_⟩
    simp only [List.mem_cons, List.not_mem_nil, or_false, forall_eq_or_imp, forall_eq]
    constructor <;> refine ⟨_, rfl, rfl, ?_⟩ <;>
      simp only [List.mem_cons, List.not_mem_nil, or_false, forall_eq_or_imp, forall_eq] <;>
      constructor <;> refine ⟨_, rfl, ?_, by decide⟩ <;> simp [NumVal, Kind.size]
  · simp only [List.length_cons, List.length_nil, exRagged, Uneven, List.mem_cons, List.not_mem_nil,
      or_false, forall_eq_or_imp, forall_eq]
    exact ⟨⟨_, _, _, .inl rfl, .inr rfl, by decide⟩, ⟨_, _, _, .inl rfl, .inr rfl, by decide⟩⟩

example : AttrOK (.slice .str [.str (ascii "a"), .str [], .str (ascii "bc")]) := by
  refine .strs [3] _ ?_ ⟨by decide, by decide⟩ (by decide) (by decide) (by decide)
  refine ⟨_, rfl, rfl, ?_⟩
  simp only [List.mem_cons, List.not_mem_nil, or_false, forall_eq_or_imp, forall_eq]
  exact ⟨⟨_, rfl, by decide, by decide⟩, ⟨_, rfl, by decide, by decide⟩, ⟨_, rfl, by decide, by decide⟩⟩

example : ∀ s i, Heap.empty.indices.get s = some i → 0 < i ∧ Heap.empty.objects[i - 1]? = some s := by
  intro s i h
  simp [Heap.empty] at h

/-- C35 fails for slices of one element: `[]int32{5}` is read back as the number 5. -/
theorem C35_negation_one_element :
    ∃ msg a s, attrMessage false none [] (ascii "a") (.slice (.num .i32) [.num .i32 5]) = .ok msg ∧
      readAttribute ⟨0, msg⟩ = .ok (a, s) ∧
      attrValue (fun _ _ => .panic) [0] a = .ok (.num .i32 5) := by
  exact ⟨_, _, _, rfl, rfl, by decide +kernel⟩

/-- C35 fails for empty slices of floating point numbers: the message cannot be read, and with it
the file cannot be opened. -/
theorem C35_negation_empty_floats :
    ∃ msg e, attrMessage false none [] (ascii "a") (.slice (.num .f64) []) = .ok msg ∧
      readAttribute ⟨0, msg⟩ = .err e := by
  exact ⟨_, _, rfl, rfl⟩

/-- C35 fails for empty slices of slices: `[][]int32{}` is written as a sequence of variable length,
on which the reader panics. -/
theorem C35_negation_empty_rows :
    ∃ msg a s, attrMessage false none [] (ascii "a") (.slice (.slice (.num .i32)) []) = .ok msg ∧
      readAttribute ⟨0, msg⟩ = .ok (a, s) ∧ attrValue (fun _ _ => .panic) [0] a = .panic := by
  exact ⟨_, _, _, rfl, rfl, by decide +kernel⟩

/-- `[][][]int8{{{1}, {2}}, {{3}, {4, 5}}}`. -/
def exLateRagged : GoVal :=
  .slice (.slice (.slice (.num .i8)))
    [.slice (.slice (.num .i8)) [.slice (.num .i8) [.num .i8 1], .slice (.num .i8) [.num .i8 2]],
     .slice (.slice (.num .i8)) [.slice (.num .i8) [.num .i8 3],
       .slice (.num .i8) [.num .i8 4, .num .i8 5]]]

/-- C35 fails for arrays of sequences when the first group has rows of one length only: the value is
read back without its last number, and no error is reported. -/
theorem C35_negation_late_ragged :
    ∃ idxs h msg a s, collectAttrVlen false Heap.empty exLateRagged = .ok (h, idxs) ∧
      attrMessage false (some h) idxs (ascii "a") exLateRagged = .ok msg ∧
      readAttribute ⟨0, msg⟩ = .ok (a, s) ∧
      attrValue (fun _ _ => .panic) [0] a = .ok
        (.slice (.slice (.slice (.num .i8)))
          [.slice (.slice (.num .i8)) [.slice (.num .i8) [.num .i8 1], .slice (.num .i8) [.num .i8 2]],
           .slice (.slice (.num .i8)) [.slice (.num .i8) [.num .i8 3],
             .slice (.num .i8) [.num .i8 4]]]) := by
  refine ⟨_, _, buildAttr (ascii "a") ((WTy.num .i8).bytes false) (buildDataspace [2, 2, 1])
    [1, 2, 3, 4, 5], ⟨ascii "a", [2, 2, 1], (WTy.num .i8).dt, .df [1, 2, 3, 4, 5]⟩,
    ⟨(buildAttr (ascii "a") ((WTy.num .i8).bytes false) (buildDataspace [2, 2, 1])
      [1, 2, 3, 4, 5]).length, []⟩, rfl, rfl, ?_, by decide +kernel⟩
  rw [readAttribute_ok (ascii "a") [1, 2, 3, 4, 5] (.num .i8) [2, 2, 1] (by decide) (by decide) trivial
    (by decide) (by decide) (by decide)]
  rfl

/-- C35 fails for strings with a NUL: they are cut there. -/
theorem C35_negation_nul_in_string :
    ∃ msg a s, attrMessage false none [] (ascii "a") (.str [97, 0, 98]) = .ok msg ∧
      readAttribute ⟨0, msg⟩ = .ok (a, s) ∧
      attrValue (fun _ _ => .panic) [0] a = .ok (.str [97]) := by
  exact ⟨_, _, _, rfl, rfl, by decide +kernel⟩

end Verif.H5
