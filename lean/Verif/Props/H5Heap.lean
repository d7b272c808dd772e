import Verif.Lemmas.H5HeapOps
/-!
C32 (global heap).
-/
namespace Verif.H5

/-- C32, part. Take any sequence of strings, variable-length elements and dimension references put in
the heap of the writer, giving less than 65536 objects, and write the heap behind any bytes `buf`
and before any bytes `tail`. For each call the writer has recorded an index, and the reader finds
under it the bytes of that call; for an empty object it finds a nil reader, which is not read. Not
covered, because the code fails: 65536 objects or more, and strings that begin with `__dimref:` (see
the negations below). -/
theorem C32_heap_round_trip_partial (dimAddr : Bytes → Nat) (ops : List HeapOp) (buf tail : Bytes)
    (k : Nat) (hk : k < ops.length) (hp : ∀ op ∈ ops, op.Plain)
    (hn : (runOps dimAddr .empty ops).1.objects.length < 65536) :
    let h := runOps dimAddr .empty ops
    let w := writeGlobalHeap buf h.1.objects
    (w.1 ++ tail).length < 2 ^ 63 →
    ∃ i, h.2[k]? = some (some i) ∧
      heapLookup (w.1 ++ tail) w.2 i =
        .ok (if (ops[k]).bytes dimAddr = [] then none else some ((ops[k]).bytes dimAddr)) := by
  intro h w hf
  obtain ⟨-, -, h3⟩ := runOps_ok dimAddr ops .empty (by intro k i h; simp [Heap.empty] at h) hp
  obtain ⟨i, hi, ho⟩ := h3 k hk
  refine ⟨i, hi, ?_⟩
  obtain ⟨hpos, hget⟩ := ho
  obtain ⟨hlt, hget⟩ := List.getElem?_eq_some_iff.1 hget
  have hw : w = _ := writeGlobalHeap_eq buf h.1.objects
  rw [hw] at hf ⊢
  have := heapLookup_ok ((buf ++ pad8 buf.length) ++ heapBlock h.1.objects ++ tail)
    (buf ++ pad8 buf.length).length h.1.objects tail (i - 1) hf
    (by rw [List.append_assoc, List.drop_left]) hn hlt
  rw [show i - 1 + 1 = i by omega] at this
  rw [this]
  have e : h.1.objects[i - 1] = (ops[k]).bytes dimAddr := hget
  rw [e]

/-- The hypotheses hold for strings, one of them twice, an empty string, data and a dimension. -/
example : ∀ op ∈ [HeapOp.string (ascii "ab"), .data [1, 2, 3], .string [], .string (ascii "ab"),
    .dimRef (ascii "x")], op.Plain := by
  intro op h
  simp only [List.mem_cons, List.not_mem_nil, or_false] at h
  rcases h with rfl | rfl | rfl | rfl | rfl
  all_goals first | trivial | (intro d h; have h' := congrArg List.head? h; revert h'; rw [show List.head? (dimRefKey d) = some 95 from rfl]; decide)

/-- C32. An index that was never recorded is not found. -/
theorem C32_heap_no_other_index (objs : List Bytes) (buf tail : Bytes) (i : Nat)
    (hn : objs.length < 65536) (hi : i = 0 ∨ objs.length < i) :
    let w := writeGlobalHeap buf objs
    (w.1 ++ tail).length < 2 ^ 63 → heapLookup (w.1 ++ tail) w.2 i = .ok none := by
  intro w hf
  have hw : w = _ := writeGlobalHeap_eq buf objs
  rw [hw] at hf ⊢
  exact heapLookup_none ((buf ++ pad8 buf.length) ++ heapBlock objs ++ tail)
    (buf ++ pad8 buf.length).length objs tail i hf
    (by rw [List.append_assoc, List.drop_left]) hn hi

/-- C32. The cache of the reader is invisible: any sequence of lookups of collections that parse
gives the same answers as lookups without a cache. -/
theorem C32_cache_transparent (file : Bytes) (calls : List (Nat × Nat))
    (h : ∀ x ∈ calls, ∃ r, heapLookup file x.1 x.2 = .ok r) :
    heapCalls file [] calls = calls.map fun x => heapLookup file x.1 x.2 := by
  refine heapCalls_ok file calls [] (by intro a c h; simp at h) ?_
  intro x hx
  obtain ⟨r, hr⟩ := h x hx
  unfold heapLookup at hr
  split at hr <;> simp_all

/-- The hypothesis holds for two lookups in a heap the writer wrote. -/
example : ∀ x ∈ [((writeGlobalHeap [] [[1], [2, 3]]).2, 2), ((writeGlobalHeap [] [[1], [2, 3]]).2, 7)],
    ∃ r, heapLookup (writeGlobalHeap [] [[1], [2, 3]]).1 x.1 x.2 = .ok r := by
  intro x hx
  have hf : ((writeGlobalHeap [] [[1], [2, 3]]).1 ++ []).length < 2 ^ 63 := by
    simp only [writeGlobalHeap_eq, List.append_nil, List.length_append, heapBlock_length]
    decide
  have h1 := heapLookup_ok (writeGlobalHeap [] [[1], [2, 3]]).1
    (writeGlobalHeap [] [[1], [2, 3]]).2 [[1], [2, 3]] [] 1 (by simpa using hf)
    (by simp only [writeGlobalHeap_eq, List.drop_left, List.append_nil]) (by decide) (by decide)
  have h2 := C32_heap_no_other_index [[1], [2, 3]] [] [] 7 (by decide) (by decide) hf
  rw [List.append_nil] at h2
  simp only [List.mem_cons, List.not_mem_nil, or_false] at hx
  rcases hx with rfl | rfl
  · exact ⟨_, h1⟩
  · exact ⟨_, h2⟩

/-- C32 fails with 65536 objects: whatever they are, the last one is not found under its index. -/
theorem C32_negation_65536_objects (objs : List Bytes) (o buf tail : Bytes)
    (hn : objs.length = 65535) :
    let w := writeGlobalHeap buf (objs ++ [o])
    (w.1 ++ tail).length < 2 ^ 63 → heapLookup (w.1 ++ tail) w.2 65536 = .ok none := by
  intro w hf
  have hw : w = _ := writeGlobalHeap_eq buf (objs ++ [o])
  rw [hw] at hf ⊢
  have := heapParse_wrap ((buf ++ pad8 buf.length) ++ heapBlock (objs ++ [o]) ++ tail)
    (buf ++ pad8 buf.length).length objs o tail [] hf
    (by rw [List.append_assoc, List.drop_left]) hn
  simp only [heapLookup, this, collOf_lookup]
  rw [if_neg (by omega)]
  rfl

example : (List.replicate 65535 ([7] : Bytes)).length = 65535 := List.length_replicate ..

/-- C32 fails for a dimension `x` when the user has stored the string `__dimref:x`: the index
recorded for the reference is that of the string. -/
theorem C32_negation_dimref_string (dimAddr : Bytes → Nat) (dim : Bytes) :
    let h := runOps dimAddr .empty [.string (dimRefKey dim), .dimRef dim]
    h.2 = [some 1, some 1] ∧ h.1.objects = [dimRefKey dim] := by
  simp [runOps, HeapOp.run, Heap.addString, Heap.addDimRef, Heap.empty, GoMap.set, GoMap.get_cons]

/-- C32 fails after an error: a collection that cannot be parsed gives an error once, and a nil
reader without an error from then on. The collection here is cut short. -/
theorem C32_negation_cache_after_error :
    heapCalls (ascii "GCOL" ++ [1, 0, 0, 0] ++ leEnc 8 32 ++ leEnc 2 1 ++ leEnc 2 0 ++ leEnc 4 0 ++
      leEnc 8 5) [] [(0, 1), (0, 1)] = [.err .assertFail, .ok none] := by
  decide +kernel

end Verif.H5
