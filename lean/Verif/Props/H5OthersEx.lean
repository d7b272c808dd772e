import Verif.Props.H5Others
/-!
Files that meet the hypotheses of C52, C53 and C54, and files that show what is missing.
-/
namespace Verif.H5
open Fmt

/-! ### An old file -/

/-- An old superblock. -/
def othSuper : SuperOld := ⟨0, 0, 16, 0, 1, 552, undefAddr, 0, 96, 0, List.replicate 16 0⟩

/-- The members of the root group. -/
def othEntries : List SymEntry := [⟨ascii "g", 8, 344, some (384, 200)⟩, ⟨ascii "x", 16, 448, none⟩]

/-- The messages of the variable. -/
def othVarMsgs : List (Nat × Message) :=
  [(0, .dataspace (.v1 [2] none)), (1, .datatype (.fixed 1 4 true false)), (0, .contiguous 3 544 8)]

/-- A file with an empty group and a variable with two numbers. -/
def symFile : Bytes :=
  othSuper.bytes ++ header1 1 [(0, .symbolTable 136 200)] ++
    groupNode 0 [(0, 256)] 16 ++ List.replicate 16 0 ++
    localHeap 24 1 232 ++ (List.replicate 8 0 ++ ascii "g" ++ List.replicate 7 0 ++ ascii "x" ++ List.replicate 7 0) ++
    symNode othEntries ++
    header1 1 [(0, .symbolTable 384 200)] ++ groupNode 0 [] 0 ++ List.replicate 32 0 ++
    header1 1 othVarMsgs ++ [1, 0, 0, 0, 2, 0, 0, 0]


/-- Two links in dense storage. -/
def othLinks : List DenseLink :=
  [⟨5, 17, 0, false, none, none, ascii "v", 361⟩, ⟨6, 29, 0, false, none, none, ascii "w", 711⟩]

/-- An attribute in dense storage. -/
def othAttrs : List DenseAttr :=
  [⟨18, 0, 0, 7, 3, ascii "n", .fixed 1 4 true false, .v1 [] none, [9, 0, 0, 0], .df [9, 0, 0, 0]⟩]

/-- A header without optional parts. -/
def head0 : Head2 := ⟨0, false, false, none, none, 0⟩

/-- The messages of a variable with two bytes in its header. -/
def othVar2 : List (Nat × Nat × Message) :=
  [(0, 0, .dataspace (.v2 1 [2] none)), (0, 0, .datatype (.fixed 1 1 true false)), (0, 0, .compact 3 [3, 255]),
    (0, 0, .attributeInfo none none 436 582)]

/-- The messages of an empty group. -/
def othGroup2 : List (Nat × Nat × Message) :=
  [(0, 0, .groupInfo none none), (0, 0, .linkInfo none none undefAddr undefAddr)]

/-- A file with dense storage of links and attributes. -/
def denseFile : Bytes :=
  block (superNew 3 0 undefAddr 750 48) ++ header2 head0 [(0, 0, .linkInfo none none 81 227)] ++
    block (frhp 7 0 4096 (List.replicate 12 0) 6 7 32 1 297 0) ++
    block (bthd 5 512 11 0 100 40 265 2 2) ++
    block (leafNode 5 (othLinks.map DenseLink.record)) ++
    ([0x46, 0x48, 0x44, 0x42] ++ num 1 0 ++ num 8 81 ++ num 4 0 ++ othLinks.flatMap (·.link.bytes) ++ List.replicate 23 0) ++
    header2 head0 othVar2 ++
    block (frhp 8 0 4096 (List.replicate 12 0) 6 7 40 1 647 0) ++
    block (bthd 8 512 17 0 100 40 620 1 1) ++
    block (leafNode 8 (othAttrs.map DenseAttr.record)) ++
    ([0x46, 0x48, 0x44, 0x42] ++ num 1 0 ++ num 8 436 ++ num 5 0 ++ othAttrs.flatMap (·.attr.bytes) ++ List.replicate 11 0) ++
    header2 head0 othGroup2

/-- What is in `symFile`: a group, -/
def symFileG : Obj := .mk { name := ascii "g", addr := 344, isGroup := true } []
/-- a variable, -/
def symFileX : Obj :=
  .mk { name := ascii "x", addr := 448, dims := some [2], dt := some (.fixed 4 true false), blocks := [.at 544 8] } []
/-- and the root group. -/
def symFileTree : Obj := .mk { addr := 96, isGroup := true } [symFileG, symFileX]

theorem symFile_fits (b h : Nat) (hb : b < 2 ^ 64) (hh : h < 2 ^ 64) : Fits1 [(0, .symbolTable b h)] := by
  intro x hx
  cases List.mem_singleton.1 hx
  exact ⟨Nat.zero_lt_succ _, ⟨hb, hh⟩, by simp [Message.bytes, num_eq], .inr trivial⟩

theorem symFile_fitsX : Fits1 othVarMsgs := by
  intro x hx
  simp only [othVarMsgs, List.mem_cons, List.not_mem_nil, or_false] at hx
  rcases hx with rfl | rfl | rfl
  · exact ⟨by decide, ⟨by decide, by decide, by simp⟩, by decide +kernel, .inr trivial⟩
  · exact ⟨by decide, by simp [Message.OK, DType.Readable, IntSize], by decide +kernel,
      .inr (by simp [Message.Tolerant, DType.Readable, IntSize])⟩
  · exact ⟨by decide, ⟨.inl rfl, by decide, by decide⟩, by decide +kernel, .inr trivial⟩

theorem symFile_table : SymTable symFile 136 200 [(ascii "g", 344), (ascii "x", 448)] := by
  refine ⟨[⟨0, 256, othEntries⟩], 16, List.replicate 16 0, 24, 1, 232, by decide, by decide, by decide,
    by unfold At; decide +kernel, by decide, by decide +kernel, by unfold At; decide +kernel, ?_, rfl⟩
  intro l hl
  cases List.mem_singleton.1 hl
  refine ⟨by decide, by decide, by decide, by unfold At; decide +kernel, ?_⟩
  intro e he
  simp only [othEntries, List.mem_cons, List.not_mem_nil, or_false] at he
  rcases he with rfl | rfl
  · exact ⟨⟨by decide, by decide, by decide, by rintro c ⟨⟩; decide⟩, by decide, by unfold At; decide +kernel⟩
  · exact ⟨⟨by decide, by decide, by decide, by rintro c ⟨⟩⟩, by decide, by unfold At; decide +kernel⟩

theorem symFile_tableG : SymTable symFile 384 200 [] :=
  ⟨[], 0, List.replicate 32 0, 24, 1, 232, by decide, by decide, by decide, by unfold At; decide +kernel, by decide,
    by decide +kernel, by unfold At; decide +kernel, by simp, rfl⟩

theorem symFile_holds : FileHolds symFile symFileTree := by
  refine ⟨96, undefAddr, { addr := 96, isGroup := true }, [], [], [symFileG, symFileX], [], ?_, by decide, .inl rfl, ?_, rfl, rfl,
    .none, by decide, by decide, rfl⟩
  · exact .inl ⟨othSuper, by unfold SuperOld.OK; decide, by decide +kernel, rfl, rfl, by unfold At; decide +kernel⟩
  refine .header1 (refs := 1) (symFile_fits 136 200 (by decide) (by decide)) (by decide) (by decide) (by decide +kernel) (by decide)
    (by unfold At; decide +kernel) (.symbols (kids1 := [symFileG, symFileX]) symFile_table (.cons ?_ (.cons ?_ .none)) .nil)
  · refine .object (kids1 := []) (kids2 := []) (as := []) (ls := [])
      (i := { name := ascii "g", addr := 344, isGroup := true }) ?_ rfl rfl .none .nil
    exact .header1 (refs := 1) (symFile_fits 384 200 (by decide) (by decide)) (by decide) (by decide) (by decide +kernel) (by decide)
      (by unfold At; decide +kernel) (.symbols (kids1 := []) symFile_tableG .none .nil)
  · refine .object (kids1 := []) (kids2 := []) (as := []) (ls := []) (i := symFileX.info) ?_ rfl rfl .none .nil
    refine .header1 (refs := 1) symFile_fitsX (by decide) (by decide) (by decide +kernel) (by decide)
      (by unfold At; decide +kernel) ?_
    refine .plain rfl trivial (.plain rfl rfl (.plain rfl trivial ?_))
    exact .nil

/-! ### A file with dense storage -/

/-- What is in `denseFile`: a variable, -/
def denseFileV : Obj :=
  .mk { name := ascii "v", addr := 361, dims := some [2], dt := some (.fixed 1 true false), blocks := [.raw [3, 255]],
        attr := some (436, 582), attrs := [⟨ascii "n", [], .fixed 4 true false, .df [9, 0, 0, 0]⟩] } []
/-- a group, -/
def denseFileW : Obj := .mk { name := ascii "w", addr := 711, isGroup := true, link := some (undefAddr, undefAddr) } []
/-- and the root group. -/
def denseFileTree : Obj := .mk { addr := 48, isGroup := true, link := some (81, 227) } [denseFileV, denseFileW]

theorem denseFile_links : DenseLinks denseFile 81 227 [(ascii "v", 361, 0), (ascii "w", 711, 0)] := by
  refine ⟨6, 7, [297], othLinks, ?_, ?_, ?_, rfl⟩
  · exact ⟨7, 0, 4096, List.replicate 12 0, 1, 297, 0, by decide, by decide, by decide, by decide, by simp,
      by decide, by decide, by decide, by decide, by unfold At; decide +kernel, .inl ⟨rfl, rfl⟩⟩
  · refine ⟨512, 0, 100, 40, 265, 2, by decide, by decide, by decide, by decide, by decide, by decide, by decide +kernel,
      by intro d h1 h2; omega, by unfold At; decide +kernel, ?_⟩
    have := Forest.leaf (file := denseFile) (ns := 512) (rs := 11) (ty := 5) (addr := 265)
      (recs := othLinks.map DenseLink.record) (kids := []) (rest := []) (by decide +kernel) (by decide +kernel)
      (by unfold At; decide +kernel) .nil
    exact this
  · intro r hr
    simp only [othLinks, List.mem_cons, List.not_mem_nil, or_false] at hr
    rcases hr with rfl | rfl
    · refine ⟨by decide, by decide, ⟨by decide, by simp, by simp, by decide, by decide⟩, by decide +kernel,
        297, 17, .direct (e := 0) rfl (by decide) (by decide) (by decide) (by decide), by unfold At; decide +kernel⟩
    · refine ⟨by decide, by decide, ⟨by decide, by simp, by simp, by decide, by decide⟩, by decide +kernel,
        297, 29, .direct (e := 0) rfl (by decide) (by decide) (by decide) (by decide), by unfold At; decide +kernel⟩

theorem denseFile_attrs : DenseAttrs denseFile 436 582 [⟨ascii "n", [], .fixed 4 true false, .df [9, 0, 0, 0]⟩] := by
  refine ⟨6, 7, [647], othAttrs, ?_, ?_, ?_, rfl⟩
  · exact ⟨8, 0, 4096, List.replicate 12 0, 1, 647, 0, by decide, by decide, by decide, by decide, by simp,
      by decide, by decide, by decide, by decide, by unfold At; decide +kernel, .inl ⟨rfl, rfl⟩⟩
  · refine ⟨512, 0, 100, 40, 620, 1, by decide, by decide, by decide, by decide, by decide, by decide, by decide +kernel,
      by intro d h1 h2; omega, by unfold At; decide +kernel, ?_⟩
    have := Forest.leaf (file := denseFile) (ns := 512) (rs := 17) (ty := 8) (addr := 620)
      (recs := othAttrs.map DenseAttr.record) (kids := []) (rest := []) (by decide +kernel) (by decide +kernel)
      (by unfold At; decide +kernel) .nil
    exact this
  · intro r hr
    cases List.mem_singleton.1 hr
    refine ⟨by decide, by decide, by decide, by decide, by decide,
      ⟨.inr (.inr rfl), by decide, by decide, by simp [DType.Readable, IntSize], by decide +kernel,
        by simp [Space.OK, ShapeOK], rfl⟩, by decide +kernel,
      647, 18, .direct (e := 0) rfl (by decide) (by decide) (by decide) (by decide), by unfold At; decide +kernel⟩

theorem linksOf_some {file : Bytes} {h b : Nat} {ls : List (Bytes × Nat × Nat)} (hh : h ≠ undefAddr)
    (hl : DenseLinks file h b ls) : LinksOf file (some (h, b)) ls := by
  simp only [LinksOf, if_neg hh]
  exact hl

theorem linksOf_undef (file : Bytes) (b : Nat) : LinksOf file (some (undefAddr, b)) [] := by
  simp only [LinksOf, if_pos]

theorem attrsOf_some {file : Bytes} {h b : Nat} {as : List Attr} (hh : h ≠ undefAddr)
    (hl : DenseAttrs file h b as) : AttrsOf file (some (h, b)) as := by
  simp only [AttrsOf, if_neg hh]
  exact hl

theorem head0_ok : head0.OK := ⟨by decide, by simp [head0], by simp [head0], by decide⟩

theorem denseFile_holds : FileHolds denseFile denseFileTree := by
  refine ⟨48, undefAddr, { addr := 48, isGroup := true, link := some (81, 227) }, [],
    [(ascii "v", 361, 0), (ascii "w", 711, 0)], [], [denseFileV, denseFileW], ?_, by decide, .inl rfl, ?_, rfl, ?_,
    .cons ?_ (.cons ?_ .none), by decide, by decide, rfl⟩
  · exact .inr ⟨3, 0, 750, .inr rfl, by decide, by decide +kernel, by decide, by decide, by unfold At; decide +kernel⟩
  · refine .header2 (hd := head0) (ms := [(0, 0, .linkInfo none none 81 227)]) head0_ok ?_ (by decide +kernel)
      (by decide +kernel) (by decide) (by unfold At; decide +kernel) (.plain rfl rfl .nil)
    intro x hx
    cases List.mem_singleton.1 hx
    exact ⟨by decide, by decide, ⟨by simp, by simp, by decide, by decide⟩, by decide +kernel⟩
  · exact linksOf_some (by decide) denseFile_links
  · refine .object (kids1 := []) (kids2 := []) (ls := []) (i := { denseFileV.info with attrs := [] }) ?_ ?_ rfl .none .nil
    · refine .header2 (hd := head0) (ms := othVar2) head0_ok ?_ (by decide +kernel)
        (by decide +kernel) (by decide) (by unfold At; decide +kernel)
        (.plain rfl trivial (.plain rfl rfl (.plain rfl trivial (.plain rfl rfl .nil))))
      intro x hx
      simp only [othVar2, List.mem_cons, List.not_mem_nil, or_false] at hx
      rcases hx with rfl | rfl | rfl | rfl
      · exact ⟨by decide, by decide, ⟨by decide, by decide, by decide, by simp⟩, by decide +kernel⟩
      · exact ⟨by decide, by decide, by simp [Message.OK, DType.Readable, IntSize], by decide +kernel⟩
      · exact ⟨by decide, by decide, ⟨.inl rfl, by decide⟩, by decide +kernel⟩
      · exact ⟨by decide, by decide, ⟨by simp, by simp, by decide, by decide⟩, by decide +kernel⟩
    · exact attrsOf_some (h := 436) (b := 582) (by decide) denseFile_attrs
  · refine .object (kids1 := []) (kids2 := []) (as := []) (ls := []) (i := denseFileW.info) ?_ rfl ?_ .none .nil
    · refine .header2 (hd := head0) (ms := othGroup2) head0_ok ?_ (by decide +kernel)
        (by decide +kernel) (by decide) (by unfold At; decide +kernel) (.plain rfl trivial (.plain rfl rfl .nil))
      intro x hx
      simp only [othGroup2, List.mem_cons, List.not_mem_nil, or_false] at hx
      rcases hx with rfl | rfl
      · exact ⟨by decide, by decide, ⟨by simp, by simp⟩, by decide +kernel⟩
      · exact ⟨by decide, by decide, ⟨by simp, by simp, by decide, by decide⟩, by decide +kernel⟩
    · exact linksOf_undef denseFile undefAddr

/-! ### What the theorems say about them -/

example : OpensTo symFile symFileTree ∧ ∀ o', OpensTo symFile o' → o' = symFileTree :=
  C52_open_partial symFile symFileTree (by decide +kernel) symFile_holds

example : OpensTo denseFile denseFileTree ∧ ∀ o', OpensTo denseFile o' → o' = denseFileTree :=
  C52_open_partial denseFile denseFileTree (by decide +kernel) denseFile_holds

/-- The symbol table of the root group of `symFile`. -/
example (kids : List Obj)
    (hk : Holds symFile (.objects ([(ascii "g", 344), (ascii "x", 448)].map fun e => ⟨e.1, e.2, 0, true⟩) kids))
    (ha : (allAddrs kids).Nodup) :
    ∃ o, OpensTo symFile o ∧ o.kids = kids ∧
      o.kids.map (fun k => (k.info.name, k.info.addr)) = [(ascii "g", 344), (ascii "x", 448)] :=
  C53_members_partial symFile 96 1 0 136 200 _ kids (by decide +kernel)
    (.inl ⟨othSuper, by unfold SuperOld.OK; decide, by decide +kernel, rfl, rfl, by unfold At; decide +kernel⟩)
    (by decide) (by decide) (by decide) (by decide) (by decide) (by decide) (by unfold At; decide +kernel) symFile_table hk
    (by decide) ha

/-- Three links in a heap of two blocks, in a tree of two levels. -/
def deepLinks : List DenseLink :=
  [⟨5, 17, 0, false, none, none, ascii "x", 8⟩, ⟨6, 29, 0, false, some 3, none, ascii "y", 9⟩,
    ⟨7, 81, 0, true, none, some 1, ascii "z", 10⟩]

/-- The heap and the tree. -/
def deepFile : Bytes :=
  block (frhp 7 0 4096 (List.replicate 12 0) 6 7 32 1 146 1) ++
    block (fhib 32 0 0 [199, 263, undefAddr, undefAddr]) ++
    ([0x46, 0x48, 0x44, 0x42] ++ num 1 0 ++ num 8 0 ++ num 4 0 ++ (deepLinks.take 2).flatMap (·.link.bytes) ++
      List.replicate 15 0) ++
    ([0x46, 0x48, 0x44, 0x42] ++ num 1 0 ++ num 8 0 ++ num 4 64 ++ (deepLinks.drop 2).flatMap (·.link.bytes) ++
      List.replicate 33 0) ++
    block (bthd 5 512 11 1 100 40 365 1 3) ++
    block (innerNode 512 11 5 0 ((deepLinks.take 1).map DenseLink.record) [(404, 1, 1), (425, 1, 1)]) ++
    block (leafNode 5 (((deepLinks.drop 1).take 1).map DenseLink.record)) ++
    block (leafNode 5 ((deepLinks.drop 2).map DenseLink.record))

example : DenseLinks deepFile 0 327 [(ascii "x", 8, 0), (ascii "y", 9, 3), (ascii "z", 10, 0)] := by
  refine ⟨6, 7, [199, 263, undefAddr, undefAddr], deepLinks, ?_, ?_, ?_, rfl⟩
  · exact ⟨7, 0, 4096, List.replicate 12 0, 1, 146, 1, by decide, by decide, by decide, by decide, by simp,
      by decide, by decide, by decide, by decide, by unfold At; decide +kernel,
      .inr ⟨by decide, by decide, by decide, by decide, 0, 0, by unfold At; decide +kernel⟩⟩
  · refine ⟨512, 1, 100, 40, 365, 1, by decide, by decide, by decide, by decide, by decide, by decide, by decide +kernel,
      by intro d h1 h2; omega, by unfold At; decide +kernel, ?_⟩
    have := Forest.node (file := deepFile) (ns := 512) (rs := 11) (ty := 5) (d := 0) (addr := 365)
      (own := (deepLinks.take 1).map DenseLink.record) (kids' := [(404, 1, 1), (425, 1, 1)]) (kids := []) (rest := [])
      (below := (deepLinks.drop 1).map DenseLink.record)
      (by decide +kernel) (by decide +kernel) (by decide) (by decide) (by decide) (by unfold At; decide +kernel)
      (.leaf (recs := ((deepLinks.drop 1).take 1).map DenseLink.record) (by decide +kernel) (by decide +kernel)
        (by unfold At; decide +kernel)
        (.leaf (recs := (deepLinks.drop 2).map DenseLink.record) (by decide +kernel) (by decide +kernel)
          (by unfold At; decide +kernel) .nil)) .nil
    exact this
  · intro r hr
    simp only [deepLinks, List.mem_cons, List.not_mem_nil, or_false] at hr
    rcases hr with rfl | rfl | rfl
    · refine ⟨by decide, by decide, ⟨by decide, by simp, by simp, by decide, by decide⟩, by decide +kernel,
        199, 17, .direct (e := 0) rfl (by decide) (by decide) (by decide) (by decide), by unfold At; decide +kernel⟩
    · refine ⟨by decide, by decide, ⟨by decide, by simp, by simp, by decide, by decide⟩, by decide +kernel,
        199, 29, .direct (e := 0) rfl (by decide) (by decide) (by decide) (by decide), by unfold At; decide +kernel⟩
    · refine ⟨by decide, by decide, ⟨by decide, by simp, by simp, by decide, by decide⟩, by decide +kernel,
        263, 17, .direct (e := 1) rfl (by decide) (by decide) (by decide) (by decide), by unfold At; decide +kernel⟩

/-- The contents of the variable. -/
def symFileCell : List Nat → Bytes
  | [0] => [1, 0, 0, 0]
  | _ => [2, 0, 0, 0]

/-- Its values. -/
def symFileVal : List Nat → GoVal
  | [0] => .num .i32 1
  | _ => .num .i32 2

theorem symFile_flat : FlatVar symFile symFileX.info (.fixed 4 true false) [2] symFileCell [0] :=
  ⟨rfl, rfl, rfl, by decide +kernel, by decide, by decide, by decide,
    fun idx => by unfold symFileCell; split <;> rfl, .zero _ rfl rfl (by simp), by decide,
    .inl ⟨544, rfl, by unfold At; decide +kernel⟩⟩

example : ∃ o' G, OpensTo symFile o' ∧ (rootGroup o').getGroup (ascii "/") = .ok G ∧
    ∀ (inflate : Bytes → Res Bytes) (fuel : Nat),
      (G.getVariable ⟨inflate, fuel, symFile⟩ [] (ascii "x")).2 =
        (varMeta ⟨inflate, fuel, symFile⟩ symFileTree symFileX).map fun m =>
          ⟨tabulate (.num .i32) [2] symFileVal, m.1, m.2⟩ := by
  refine C52_values_partial symFile symFileTree (by decide +kernel) symFile_holds [] (ascii "/") ?_ (by decide) symFileTree symFileX
    (ascii "x") rfl rfl (by intro a ha; cases ha) [2] (.fixed 4 true false) symFileCell [0] symFileVal (.num .i32) rfl rfl
    symFile_flat ?_ ?_ ?_
  · exact .nil 1
  · exact .num .i32 false
  · rintro ⟨e, he⟩
    cases he
  · intro idx hi
    unfold symFileCell symFileVal
    split
    · exact .num .i32 false 1 (by decide)
    · exact .num .i32 false 2 (by decide)

/-! ### Negations -/

/-- The names of the members of the root group when the file is opened. -/
def rootNames (file : Bytes) : Res (List Bytes) := (openN 20 file).map fun o => o.kids.map (·.info.name)

/-- The messages of a variable with two numbers at an address. -/
def othVarAt (a : Nat) : List (Nat × Message) :=
  [(0, .dataspace (.v1 [2] none)), (1, .datatype (.fixed 1 4 true false)), (0, .contiguous 3 a 8)]

/-- A group with three names: `g` and `x` for the same variable, `y` for another group. -/
def othTwice : Bytes :=
  { othSuper with eof := 592 }.bytes ++ header1 1 [(0, .symbolTable 136 200)] ++
    groupNode 0 [(0, 256)] 16 ++ List.replicate 16 0 ++
    localHeap 24 1 232 ++ (List.replicate 8 0 ++ ascii "g" ++ [0] ++ ascii "y" ++ List.replicate 5 0 ++ ascii "x" ++
      List.replicate 7 0) ++
    symNode [⟨ascii "g", 8, 488, none⟩, ⟨ascii "x", 16, 488, none⟩, ⟨ascii "y", 10, 384, some (424, 200)⟩] ++
    header1 1 [(0, .symbolTable 424 200)] ++ groupNode 0 [] 0 ++ List.replicate 32 0 ++
    header1 2 (othVarAt 584) ++ [1, 0, 0, 0, 2, 0, 0, 0]

/-- C53 fails when an object has two names: the second name is not listed, and neither is any name behind
it in the node, here that of another group. -/
theorem C53_negation_twice :
    SymTable othTwice 136 200 [(ascii "g", 488), (ascii "x", 488), (ascii "y", 384)] ∧
    rootNames othTwice = .ok [ascii "g"] := by
  refine ⟨?_, by decide +kernel⟩
  refine ⟨[⟨0, 256, [⟨ascii "g", 8, 488, none⟩, ⟨ascii "x", 16, 488, none⟩, ⟨ascii "y", 10, 384, some (424, 200)⟩]⟩], 16,
    List.replicate 16 0, 24, 1, 232, by decide, by decide, by decide,
    by unfold At; decide +kernel, by decide, by decide +kernel, by unfold At; decide +kernel, ?_, rfl⟩
  intro l hl
  cases List.mem_singleton.1 hl
  refine ⟨by decide, by decide, by decide, by unfold At; decide +kernel, ?_⟩
  intro e he
  simp only [List.mem_cons, List.not_mem_nil, or_false] at he
  rcases he with rfl | rfl | rfl
  · exact ⟨⟨by decide, by decide, by decide, by rintro c ⟨⟩⟩, by decide, by unfold At; decide +kernel⟩
  · exact ⟨⟨by decide, by decide, by decide, by rintro c ⟨⟩⟩, by decide, by unfold At; decide +kernel⟩
  · exact ⟨⟨by decide, by decide, by decide, by rintro c ⟨⟩; decide⟩, by decide, by unfold At; decide +kernel⟩

/-- `symFile` with a B-tree of two levels: a node of level 1 leads to the node that leads to the entries. -/
def othDeep : Bytes :=
  othSuper.bytes ++ header1 1 [(0, .symbolTable 136 200)] ++
    groupNode 1 [(0, 552)] 16 ++ List.replicate 16 0 ++
    localHeap 24 1 232 ++ (List.replicate 8 0 ++ ascii "g" ++ List.replicate 7 0 ++ ascii "x" ++ List.replicate 7 0) ++
    symNode othEntries ++
    header1 1 [(0, .symbolTable 384 200)] ++ groupNode 0 [] 0 ++ List.replicate 32 0 ++
    header1 1 othVarMsgs ++ [1, 0, 0, 0, 2, 0, 0, 0] ++
    groupNode 0 [(0, 256)] 16 ++ List.replicate 16 0

/-- C53 fails for a group with so many members that its B-tree has two levels: the file cannot be opened.
A node of the tree for the entries is taken for the entries themselves. -/
theorem C53_negation_two_levels :
    (∃ b1 b2, At othDeep 136 (groupNode 1 [(0, 552)] 16 ++ b1) ∧ At othDeep 552 (groupNode 0 [(0, 256)] 16 ++ b2)) ∧
    rootNames othDeep = .err .badMagic := by
  refine ⟨⟨List.replicate 16 0, List.replicate 16 0, ?_, ?_⟩, by decide +kernel⟩ <;> unfold At <;> decide +kernel

/-- A root group with a link to itself and a variable. -/
def othLoop : Bytes :=
  { othSuper with eof := 264 }.bytes ++
    header1 2 [(0, .link 0 false none none (ascii "s") 96), (0, .link 0 false none none (ascii "x") 160)] ++
    header1 1 (othVarAt 256) ++ [1, 0, 0, 0, 2, 0, 0, 0]

/-- C52 fails when the root group has a link to itself: a member that comes behind this link is missing from
the root group. -/
theorem C52_negation_link_to_root : rootNames othLoop = .ok [ascii "s"] ∧
    ((openN 20 othLoop).map fun o => (rootGroup o).listVariables) = .ok [] := by
  constructor <;> decide +kernel

/-- Two links to a variable. -/
def othSame : Bytes :=
  { othSuper with eof := 264 }.bytes ++
    header1 2 [(0, .link 0 false none none (ascii "a") 160), (0, .link 0 false none none (ascii "b") 160)] ++
    header1 2 (othVarAt 256) ++ [1, 0, 0, 0, 2, 0, 0, 0]

/-- C52 fails when a variable has two links: it has one name only. -/
theorem C52_negation_two_links : rootNames othSame = .ok [ascii "a"] := by
  decide +kernel

/-- Links in dense storage, -/
def wideLinks : List DenseLink :=
  [⟨5, 17, 0, false, none, none, ascii "g", 81⟩, ⟨6, 29, 0, false, none, none, ascii "h", 120⟩,
    ⟨7, 41, 0, false, none, none, ascii "i", 159⟩]

/-- in a tree with nodes of `ns` bytes. -/
def wideFile (ns : Nat) : Bytes :=
  let record := fun i => ((wideLinks.drop i).take 1).map DenseLink.record
  let node := fun (b : Bytes) => block b ++ List.replicate (ns - (block b).length) 0
  block (superNew 3 0 undefAddr (446 + 3 * ns) 48) ++ header2 head0 [(0, 0, .linkInfo none none 198 344)] ++
    header2 head0 othGroup2 ++ header2 head0 othGroup2 ++ header2 head0 othGroup2 ++
    block (frhp 7 0 4096 (List.replicate 12 0) 6 7 32 1 382 0) ++
    block (bthd 5 ns 11 1 100 40 446 1 3) ++
    ([0x46, 0x48, 0x44, 0x42] ++ num 1 0 ++ num 8 198 ++ num 4 0 ++ wideLinks.flatMap (·.link.bytes) ++ List.replicate 11 0) ++
    node (innerNode ns 11 5 0 (record 1) [(446 + ns, 1, 1), (446 + 2 * ns, 1, 1)]) ++
    node (leafNode 5 (record 0)) ++ node (leafNode 5 (record 2))

/-- The records of the tree in `wideFile`, the one of the root before those of the leaves. -/
def wideOrder : List Bytes := ([1, 0, 2].flatMap fun i => (wideLinks.drop i).take 1).map DenseLink.record

/-- C54 fails for nodes so large that the number of records of a leaf takes two bytes, as 4096 bytes are: the
file cannot be opened. The same file with nodes of 512 bytes is read. The heap, the records, the tree and the
linked objects are as the format has them in both. -/
theorem C54_negation_wide : ∀ ns ∈ [512, 4096],
    (HeapAt (wideFile ns) 198 6 7 32 [382] ∧ At (wideFile ns) 344 (block (bthd 5 ns 11 1 100 40 446 1 3)) ∧
      Forest (wideFile ns) ns 11 5 1 [(446, 1, 3)] wideOrder ∧
      (∀ l ∈ wideLinks, HeapObject (wideFile ns) 6 7 32 [382] l.offset l.link.bytes ∧
        At (wideFile ns) l.addr (header2 head0 othGroup2))) ∧
    recWidth ns 11 = (if ns = 512 then 1 else 2) ∧
    rootNames (wideFile ns) = if ns = 512 then .ok [ascii "h", ascii "g", ascii "i"] else .err .assertFail := by
  have hr : ∀ ns ∈ [512, 4096], rootNames (wideFile ns) =
      if ns = 512 then .ok [ascii "h", ascii "g", ascii "i"] else .err .assertFail := by decide +kernel
  have hh : ∀ ns ∈ [512, 4096], At (wideFile ns) 198 (block (frhp 7 0 4096 (List.replicate 12 0) 6 7 32 1 382 0)) ∧
      At (wideFile ns) 344 (block (bthd 5 ns 11 1 100 40 446 1 3)) := by unfold At; decide +kernel
  have hl : ∀ ns ∈ [512, 4096], ∀ l ∈ wideLinks, At (wideFile ns) (382 + l.offset) l.link.bytes ∧
      At (wideFile ns) l.addr (header2 head0 othGroup2) := by unfold At; decide +kernel
  have hi : ∀ ns ∈ [512, 4096], 
      At (wideFile ns) 446 (block (innerNode ns 11 5 0 (((wideLinks.drop 1).take 1).map DenseLink.record)
        [(446 + ns, 1, 1), (446 + 2 * ns, 1, 1)])) ∧ 
      At (wideFile ns) (446 + ns) (block (leafNode 5 ((wideLinks.take 1).map DenseLink.record))) ∧
      At (wideFile ns) (446 + 2 * ns) (block (leafNode 5 ((wideLinks.drop 2).map DenseLink.record))) := by
    unfold At; decide +kernel
  intro ns hns
  refine ⟨⟨?_, (hh ns hns).2, ?_, ?_⟩, ?_, hr ns hns⟩
  · exact ⟨7, 0, 4096, List.replicate 12 0, 1, 382, 0, by decide, by decide, by decide, by decide, by simp,
      by decide, by decide, by decide, by decide, (hh ns hns).1, .inl ⟨rfl, rfl⟩⟩
  · have hc : 1 ≤ (caps ns 11 0).1 ∧ 1 ≤ (caps ns 11 1).1 ∧ 446 + 2 * ns < 2 ^ 64 := by
      revert hns; revert ns; decide +kernel
    exact .node (own := ((wideLinks.drop 1).take 1).map DenseLink.record)
      (kids' := [(446 + ns, 1, 1), (446 + 2 * ns, 1, 1)])
      (below := (wideLinks.take 1).map DenseLink.record ++ ((wideLinks.drop 2).map DenseLink.record ++ []))
      (by decide +kernel) hc.2.1 (by decide) rfl
      (by intro k hk; simp only [List.mem_cons, List.not_mem_nil, or_false] at hk; rcases hk with rfl | rfl <;> omega)
      (hi ns hns).1
      (.leaf (recs := (wideLinks.take 1).map DenseLink.record) (by decide +kernel) hc.1 (hi ns hns).2.1
        (.leaf (recs := (wideLinks.drop 2).map DenseLink.record) (by decide +kernel) hc.1 (hi ns hns).2.2 .nil)) .nil
  · intro l hm
    refine ⟨⟨382, l.offset, .direct (e := 0) rfl (by decide) (by decide) (Nat.zero_le _) ?_, (hl ns hns l hm).1⟩,
      (hl ns hns l hm).2⟩
    revert hm; revert l; decide +kernel
  · revert hns; revert ns; decide +kernel

end Verif.H5
