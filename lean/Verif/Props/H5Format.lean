import Verif.Lemmas.H5Header
/-!
C46: object headers of other HDF5 writers. `Spec/H5Format` and `Spec/H5Header` describe the bytes of
headers and messages as the file format specification does.
-/
namespace Verif.H5
open Fmt

/-- A version 2 header, wherever it is in the file and whichever optional parts it has, has exactly
the effect of its messages, in order. -/
theorem C46_header_v2 (file : Bytes) (h : Head2) (ms : List (Nat × Nat × Message)) (addr fuel : Nat)
    (st : St) (hh : h.OK) (hm : Fits2 ms)
    (ha : AllAllowed (walk file fuel) 2 h.flags (ms.map (·.2.2))
      { st with info := { st.info with addr := addr }, kids := [] })
    (hsize : (frames2 h.tracked ms).length + h.gap < 256 ^ 2 ^ h.w)
    (hbody : (header2Body h ms).length < 2 ^ 32)
    (hat : At file addr (header2 h ms)) (hlen : file.length < 2 ^ 63) (haddr : 0 < addr) :
    walk file (fuel + 1) (.header addr) st =
      runMessages (walk file fuel) 2 h.flags (ms.map (·.2.2))
        { st with info := { st.info with addr := addr }, kids := [] } :=
  walk_header2 file h ms addr fuel st hh hm ha hsize hbody hat hlen haddr

/-- The same for version 1 headers. -/
theorem C46_header_v1 (file : Bytes) (refs : Nat) (ms : List (Nat × Message)) (addr fuel : Nat)
    (st : St) (hm : Fits1 ms) (hn : ms.length < 65536) (hr : refs < 2 ^ 32)
    (ha : AllAllowed (walk file fuel) 1 0 (ms.map (·.2))
      { st with info := { st.info with addr := addr }, kids := [] })
    (hsize : (frames1 ms).length < 2 ^ 32)
    (hat : At file addr (header1 refs ms)) (hlen : file.length < 2 ^ 63) (haddr : 0 < addr) :
    walk file (fuel + 1) (.header addr) st =
      runMessages (walk file fuel) 1 0 (ms.map (·.2))
        { st with info := { st.info with addr := addr }, kids := [] } :=
  walk_header1 file refs ms addr fuel st hm hn hr ha hsize hat hlen haddr

/-- A continuation block of a version 2 header adds the effect of its messages. -/
theorem C46_continuation_v2 (file : Bytes) (tracked : Bool) (flags gap : Nat)
    (ms : List (Nat × Nat × Message)) (addr fuel : Nat) (st : St)
    (hfl : flags / 4 % 2 = if tracked then 1 else 0) (hg : gap < 4 + if tracked then 2 else 0)
    (hm : Fits2 ms) (ha : AllAllowed (walk file fuel) 2 flags (ms.map (·.2.2)) st)
    (hbody : (chunk2Body tracked ms gap).length < 2 ^ 32)
    (hat : At file addr (chunk2 tracked ms gap)) (hlen : file.length < 2 ^ 63) :
    (Message.continuation addr (chunk2 tracked ms gap).length).run (walk file (fuel + 1)) 2 flags st =
      runMessages (walk file fuel) 2 flags (ms.map (·.2.2)) st :=
  walk_cont2 file tracked flags gap ms addr fuel st hfl hg hm ha hbody hat hlen

/-- A continuation block of a version 1 header adds the effect of its messages. -/
theorem C46_continuation_v1 (file : Bytes) (ms : List (Nat × Message)) (addr fuel : Nat) (st : St)
    (hm : Fits1 ms) (hne : ms ≠ []) (ha : AllAllowed (walk file fuel) 1 0 (ms.map (·.2)) st)
    (hat : At file addr (frames1 ms)) (hlen : file.length < 2 ^ 63) :
    (Message.continuation addr (frames1 ms).length).run (walk file (fuel + 1)) 1 0 st =
      runMessages (walk file fuel) 1 0 (ms.map (·.2)) st :=
  walk_cont1 file ms addr fuel st hm hne ha hat hlen

/-- A hard link to an object that was read before adds nothing, whatever is stored there: groups
that contain each other can be opened. -/
theorem C46_seen_object_skipped (walk : Task → St → Res St) (v fl w : Nat) (ts : Bool)
    (o c : Option Nat) (name : Bytes) (addr : Nat) (st : St)
    (hnew : ∀ k ∈ st.kids, k.info.name ≠ name) (hseen : addr ∈ st.addrs) :
    (Message.link w ts o c name addr).run walk v fl st = .ok st := by
  have h1 : st.kids.any (fun k => k.info.name == name) = false := by
    simp only [List.any_eq_false, beq_iff_eq]
    exact hnew
  have h2 : st.addrs.contains addr = true := by simpa using hseen
  simp only [Message.run, addLink, h1, h2, Bool.false_eq_true, ↓reduceIte]

/-- A hard link to a new object reads that object once and makes it the last child, with its name
and creation order; its address counts as seen from then on, also inside the object. -/
theorem C46_new_object_added (walk : Task → St → Res St) (v fl w : Nat) (ts : Bool)
    (o c : Option Nat) (name : Bytes) (addr : Nat) (st child : St)
    (hnew : ∀ k ∈ st.kids, k.info.name ≠ name) (hseen : addr ∉ st.addrs)
    (hchild : walk (.header addr)
      { info := { name := name, addr := addr, creationOrder := o.getD 0 }, addrs := st.addrs ++ [addr] } =
        .ok child)
    (hdump : child.info.link = none ∨ child.info.link = some (invalidAddress, invalidAddress))
    (hdump' : child.info.attr = none ∨ child.info.attr = some (invalidAddress, invalidAddress)) :
    (Message.link w ts o c name addr).run walk v fl st =
      .ok { st with kids := st.kids ++ [.mk child.info child.kids], addrs := child.addrs } := by
  have h1 : st.kids.any (fun k => k.info.name == name) = false := by
    simp only [List.any_eq_false, beq_iff_eq]
    exact hnew
  have h2 : st.addrs.contains addr = false := by simpa using hseen
  have hd : dumpObject walk child = .ok child := by
    apply dumpObject_none
    rcases hdump with h | h <;> rcases hdump' with h' | h' <;> simp [h, h', hasHeap]
  simp only [Message.run, addLink, addObject, h1, h2, Bool.false_eq_true, ↓reduceIte, hchild, hd]

/-! ### Instances -/

/-- A chunked, compressed variable with a fill value and an attribute, as other writers store it. -/
def exMessages : List Message :=
  [.dataspace (.v2 1 [4, 6] (some [2 ^ 64 - 1, 6])), .datatype (.fixed 1 2 true false), .fill3 3 2 (.value [7, 0]),
    .chunked 4096 [2, 3] 2, .pipeline1 [⟨2, [], true, [2]⟩, ⟨1, ascii "deflate\x00", false, [6]⟩],
    .attributeInfo (some 1) none (2 ^ 64 - 1) (2 ^ 64 - 1),
    .attr 3 (ascii "n") (.fixed 1 4 true false) (.v1 [] none) [9, 0, 0, 0] (.df [9, 0, 0, 0]), .modified 5]

theorem exMessages_ok : ∀ m ∈ exMessages, m.OK ∧ m.bytes.length < 256 := by
  intro m hm
  simp only [exMessages, List.mem_cons, List.not_mem_nil, or_false] at hm
  rcases hm with rfl | rfl | rfl | rfl | rfl | rfl | rfl | rfl <;>
    refine ⟨?_, by decide +kernel⟩
  · refine ⟨by decide, by decide, by decide, ?_⟩
    intro m h
    cases h
    decide
  · simp [Message.OK, DType.Readable, IntSize]
  · refine ⟨by decide, by decide, by decide, ?_⟩
    intro b h
    cases h
    decide
  · exact ⟨by decide, by decide, by decide, by decide, by decide⟩
  · refine ⟨by decide, ?_⟩
    intro f hf
    simp only [List.mem_cons, List.not_mem_nil, or_false] at hf
    rcases hf with rfl | rfl
    · exact ⟨by decide, by decide, by decide, by decide, by decide⟩
    · exact ⟨by decide, by decide, by decide, by decide, by decide⟩
  · refine ⟨?_, ?_, by decide, by decide⟩
    · intro x h; cases h; decide
    · intro x h; cases h
  · refine ⟨.inr (.inr rfl), by decide, by decide, by simp [DType.Readable, IntSize], by decide +kernel,
      by simp [Space.OK, ShapeOK], rfl⟩
  · show 5 < 2 ^ 32
    decide

theorem exMessages_allowed (w : Task → St → Res St) (v fl : Nat) (st : St)
    (h : st.info.layout = []) (h2 : st.info.attr = none) : AllAllowed w v fl exMessages st := by
  refine ⟨trivial, fun _ e => ?_⟩
  cases e
  refine ⟨h, fun _ e => ?_⟩
  cases e
  refine ⟨trivial, fun _ e => ?_⟩
  cases e
  refine ⟨trivial, fun _ e => ?_⟩
  cases e
  refine ⟨trivial, fun _ e => ?_⟩
  cases e
  refine ⟨h2, fun _ e => ?_⟩
  cases e
  refine ⟨trivial, fun _ e => ?_⟩
  cases e
  exact ⟨trivial, fun _ _ => trivial⟩

/-- Creation order tracked, times and phase change stored, a gap of five bytes. -/
def exHead : Head2 :=
  ⟨1, true, true, some (List.replicate 16 3), some [8, 0, 6, 0], 5⟩

/-- The object such a header describes. -/
def exInfo (addr : Nat) : Info :=
  { addr := addr, isGroup := false, dims := some [4, 6], dt := some (DType.dt (.fixed 1 2 true false)),
    fillValue := some (.value [7, 0]), layout := [2, 3], chunk := some (4096, 2, 6, 3),
    filters := [(2, [2]), (1, [6])], attr := some (2 ^ 64 - 1, 2 ^ 64 - 1),
    attrs := [⟨ascii "n", [], DType.dt (.fixed 1 4 true false), .df [9, 0, 0, 0]⟩] }

/-- In version 2. -/
example (pre post : Bytes) (hpre : 0 < pre.length) (fuel : Nat)
    (hlen : (pre ++ header2 exHead (exMessages.map fun m => (1, 4, m)) ++ post).length < 2 ^ 63) :
    walk (pre ++ header2 exHead (exMessages.map fun m => (1, 4, m)) ++ post) (fuel + 1)
      (.header pre.length) {} = .ok { info := exInfo pre.length, kids := [], addrs := [] } := by
  have hms : (exMessages.map fun m => (1, 4, m)).map (·.2.2) = exMessages := by
    simp [List.map_map, Function.comp_def]
  rw [C46_header_v2 _ exHead (exMessages.map fun m => (1, 4, m)) _ fuel {} _ _ _ (by decide +kernel)
    (by decide +kernel) (At.of_split rfl) hlen hpre, hms]
  · rfl
  · refine ⟨by decide, ?_, ?_, by decide⟩ <;> intro t h <;> cases h <;> rfl
  · intro x hx
    simp only [List.mem_map] at hx
    obtain ⟨m, hm, rfl⟩ := hx
    have := exMessages_ok m hm
    exact ⟨by simp, by simp, this.1, Nat.lt_trans this.2 (by decide)⟩
  · rw [hms]
    exact exMessages_allowed _ _ _ _ rfl rfl

/-- A variable as old libraries store it, in version 1: a compound type, an attribute with padding, a
comment. -/
def exOld : List Message :=
  [.dataspace (.v1 [3] (some [3])),
    .datatype (.compound 1 12 [(ascii "n", 0, []), (ascii "x", 4, [])] [.fixed 1 4 true false, .float 8 true]),
    .attr 1 (ascii "unit") (.str 3 0 0) (.v1 [] none) [109, 109, 0, 0, 0, 0, 0, 0]
      (.value [109, 109]),
    .comment (ascii "hi"), .contiguous 3 4096 36, .refCount 7, .nil []]

/-- In version 1. -/
example (pre post : Bytes) (hpre : 0 < pre.length) (fuel : Nat)
    (hlen : (pre ++ header1 1 (exOld.map fun m => (0, m)) ++ post).length < 2 ^ 63) :
    walk (pre ++ header1 1 (exOld.map fun m => (0, m)) ++ post) (fuel + 1) (.header pre.length) {} =
      .ok { info := { addr := pre.length, isGroup := false, dims := some [3],
                      dt := some (.compound 12 [(ascii "n", 0, some []), (ascii "x", 4, some [])]
                        [.fixed 4 true false, .float 8 true]),
                      attrs := [⟨ascii "unit", [], .str 3, .value [109, 109]⟩],
                      blocks := [.at 4096 36] },
            kids := [], addrs := [] } := by
  have hms : (exOld.map fun m => (0, m)).map (·.2) = exOld := by
    simp [List.map_map, Function.comp_def]
  rw [C46_header_v1 _ 1 (exOld.map fun m => (0, m)) _ fuel {} _ (by decide) (by decide) _
    (by decide +kernel) (At.of_split rfl) hlen hpre, hms]
  · simp [runMessages, exOld, Message.run, Message.effect, DType.dt, typesDt, Space.dims, undefAddr,
      invalidAddress]
  · intro x hx
    simp only [exOld, List.map_cons, List.map_nil, List.mem_cons, List.not_mem_nil, or_false] at hx
    rcases hx with rfl | rfl | rfl | rfl | rfl | rfl | rfl <;> refine ⟨by decide, ?_, by decide +kernel, ?_⟩
    · simp [Message.OK, Space.OK, ShapeOK]
    · exact .inr trivial
    · simp [Message.OK, DType.Readable, TypesReadable, IntSize, MemberOK, offWidth]
      decide
    · exact .inr (by simp [Message.Tolerant, DType.Readable, TypesReadable, IntSize, MemberOK, offWidth]; decide)
    · exact ⟨.inl rfl, by decide, by decide, by simp [DType.Readable], by decide +kernel,
        by simp [Space.OK, ShapeOK], rfl⟩
    · exact .inl (by decide +kernel)
    · simp [Message.OK]; decide
    · exact .inr trivial
    · exact ⟨by decide, by decide, by decide⟩
    · exact .inr trivial
    · show 7 < 2 ^ 32
      decide
    · exact .inr trivial
    · trivial
    · exact .inr trivial
  · rw [hms]
    refine ⟨trivial, fun _ e => ?_⟩
    cases e
    refine ⟨rfl, fun _ e => ?_⟩
    cases e
    refine ⟨trivial, fun _ e => ?_⟩
    cases e
    refine ⟨trivial, fun _ e => ?_⟩
    cases e
    refine ⟨trivial, fun _ e => ?_⟩
    cases e
    refine ⟨trivial, fun _ e => ?_⟩
    cases e
    exact ⟨trivial, fun _ _ => trivial⟩

/-- A continuation block of version 2 with an attribute. -/
example (pre post : Bytes) (fuel : Nat) (st : St)
    (hlen : (pre ++ chunk2 false [(0, 0, .attr 2 (ascii "b") (.fixed 3 1 false true) (.v1 [] none) [1] (.df [1]))] 3 ++
      post).length < 2 ^ 63) :
    (Message.continuation pre.length 46).run
      (walk (pre ++ chunk2 false [(0, 0, .attr 2 (ascii "b") (.fixed 3 1 false true) (.v1 [] none) [1] (.df [1]))] 3 ++ post)
        (fuel + 1)) 2 2 st =
      .ok { st with info := { st.info with
        attrs := st.info.attrs ++ [⟨ascii "b", [], DType.dt (.fixed 3 1 false true), .df [1]⟩] } } := by
  have := C46_continuation_v2 (pre ++ chunk2 false
    [(0, 0, .attr 2 (ascii "b") (.fixed 3 1 false true) (.v1 [] none) [1] (.df [1]))] 3 ++ post) false 2 3
    [(0, 0, .attr 2 (ascii "b") (.fixed 3 1 false true) (.v1 [] none) [1] (.df [1]))] pre.length fuel st rfl (by decide)
    (by
      intro x hx
      simp only [List.mem_cons, List.not_mem_nil, or_false] at hx
      subst hx
      exact ⟨by decide, by decide, ⟨.inr (.inl rfl), by decide, by decide,
        by simp [DType.Readable, IntSize], by decide +kernel, by simp [Space.OK, ShapeOK], rfl⟩,
        by decide +kernel⟩)
    ⟨trivial, fun _ _ => trivial⟩ (by decide +kernel) (At.of_split rfl) hlen
  refine Eq.trans ?_ this
  congr 2

/-- A continuation block of version 1. -/
example (pre post : Bytes) (fuel : Nat) (st : St)
    (hlen : (pre ++ frames1 [(0, .dataspace (.v2 0 [] none))] ++ post).length < 2 ^ 63) :
    (Message.continuation pre.length 16).run
      (walk (pre ++ frames1 [(0, .dataspace (.v2 0 [] none))] ++ post) (fuel + 1)) 1 0 st =
      .ok { st with info := { st.info with isGroup := false, dims := some [] } } := by
  refine C46_continuation_v1 (pre ++ frames1 [(0, .dataspace (.v2 0 [] none))] ++ post)
    [(0, .dataspace (.v2 0 [] none))] pre.length fuel st ?_ (by simp) ⟨trivial, fun _ _ => trivial⟩
    (At.of_split rfl) hlen
  intro x hx
  simp only [List.mem_cons, List.not_mem_nil, or_false] at hx
  subst hx
  refine ⟨by decide, ⟨by decide, by decide, by decide, ?_⟩, by decide +kernel, .inr trivial⟩
  intro m h
  cases h

/-- A link back to the root group, at address 48, from a group inside it. -/
example (w : Task → St → Res St) : (Message.link 0 false none none (ascii "up") 48).run w 2 0
    { addrs := [48, 96] } = .ok { addrs := [48, 96] } :=
  C46_seen_object_skipped w 2 0 0 false none none _ 48 _ (by simp) (by simp)

/-- A link to an empty group. -/
example : (Message.link 0 false (some 3) none (ascii "g") 96).run
    (fun _ st => .ok { st with info := { st.info with isGroup := true } }) 2 0 { addrs := [48] } =
    .ok { kids := [.mk { name := ascii "g", addr := 96, creationOrder := 3, isGroup := true } []],
          addrs := [48, 96] } :=
  C46_new_object_added _ 2 0 0 false (some 3) none _ 96 _
    { info := { name := ascii "g", addr := 96, creationOrder := 3, isGroup := true },
      addrs := [48, 96] } (by simp) (by simp) rfl (.inl rfl) (.inl rfl)

end Verif.H5
