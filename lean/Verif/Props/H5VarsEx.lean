import Verif.Props.H5OthersEx
import Verif.Props.H5TypedEx
import Verif.Props.H5Vars
/-!
C56: a file that meets the hypotheses, and what is not so.
-/
namespace Verif.H5
open Fmt

/-! ### A netCDF-4 file -/

/-- The type of the variable `v`: the cells of `Props/H5TypedEx`. -/
def ncType : DType :=
  .compound 3 6 [(ascii "n", 0, []), (ascii "p", 2, []), (ascii "c", 5, [])]
    [.fixed 1 2 false true, .array 3 2 [2] [0] (.fixed 1 1 false false), .enum 3 1 1 false false [ascii "red", ascii "blue"] [1, 2]]

/-- The type of the back references. -/
def ncRefType : DType :=
  .compound 3 12 [(ascii "dataset", 0, []), (ascii "dimension", 8, [])] [.ref 8 0, .fixed 1 4 false false]

/-- The root group has a title and two links. -/
def ncRoot (x v : Nat) : List (Nat × Nat × Message) :=
  [(0, 0, .linkInfo none none undefAddr undefAddr), (0, 0, .link 0 false none none (ascii "x") x),
    (0, 0, .link 0 false none none (ascii "v") v),
    (0, 0, .attr 3 (ascii "title") (.str 4 1 0) (.v2 0 [] none) (ascii "demo") (.value (ascii "demo")))]

/-- A coordinate variable, with a reference to the variable that uses it. -/
def ncX (v : Nat) : List (Nat × Nat × Message) :=
  [(0, 0, .dataspace (.v2 1 [2] none)), (0, 0, .datatype (.fixed 1 1 false false)), (0, 0, .compact 3 [10, 20]),
    (0, 0, .attr 3 (ascii "CLASS") (.str 16 0 0) (.v2 0 [] none) (ascii "DIMENSION_SCALE" ++ [0]) (.value (ascii "DIMENSION_SCALE"))),
    (0, 0, .attr 3 (ascii "NAME") (.str 2 0 0) (.v2 0 [] none) (ascii "x" ++ [0]) (.value (ascii "x"))),
    (0, 0, .attr 3 (ascii "REFERENCE_LIST") ncRefType (.v2 1 [1] none) (num 8 v ++ num 4 0) (.df (num 8 v ++ num 4 0)))]

/-- A variable whose dimension is `x`. -/
def ncV (gcol data : Nat) : List (Nat × Nat × Message) :=
  [(0, 0, .dataspace (.v2 1 [2] none)), (0, 0, .datatype ncType), (0, 0, .contiguous 3 data 12),
    (0, 0, .attr 3 (ascii "units") (.str 2 0 0) (.v2 0 [] none) (ascii "K" ++ [0]) (.value (ascii "K"))),
    (0, 0, .attr 3 (ascii "DIMENSION_LIST") (.vlenSeq 1 16 0 (.ref 8 0)) (.v2 1 [1] none)
      (num 4 1 ++ num 8 gcol ++ num 4 1) (.df (num 4 1 ++ num 8 gcol ++ num 4 1)))]

/-- A collection of the global heap with the address of `x`. -/
def ncHeap (x : Nat) : Bytes :=
  ascii "GCOL" ++ [1, 0, 0, 0] ++ num 8 56 ++ (num 2 1 ++ num 2 0 ++ num 4 0 ++ num 8 8 ++ num 8 x) ++
    (num 2 0 ++ num 2 0 ++ num 4 0 ++ num 8 16)

/-- The values of `v`. -/
def ncData : Bytes := [1, 2, 3, 4, 0, 1, 0, 7, 5, 6, 0, 2]

/-- The file. -/
def ncFile : Bytes :=
  block (superNew 2 0 undefAddr 691 48) ++ header2 head0 (ncRoot 148 380) ++ header2 head0 (ncX 380) ++
    header2 head0 (ncV 623 679) ++ ncHeap 148 ++ ncData

/-- What is in it: a coordinate variable, -/
def ncFileX : Obj :=
  .mk { name := ascii "x", addr := 148, dims := some [2], dt := some byteDT, blocks := [.raw [10, 20]],
        attrs := [⟨ascii "CLASS", [], .str 16, .value (ascii "DIMENSION_SCALE")⟩, ⟨ascii "NAME", [], .str 2, .value (ascii "x")⟩,
          ⟨ascii "REFERENCE_LIST", [1], ncRefType.dt, .df (num 8 380 ++ num 4 0)⟩] } []
/-- a variable, -/
def ncFileV : Obj :=
  .mk { name := ascii "v", addr := 380, dims := some [2], dt := some cellDT, blocks := [.at 679 12],
        attrs := [⟨ascii "units", [], .str 2, .value (ascii "K")⟩,
          ⟨ascii "DIMENSION_LIST", [1], .vlen 16 false (.ref 8), .df (num 4 1 ++ num 8 623 ++ num 4 1)⟩] } []
/-- and the root group. -/
def ncFileTree : Obj :=
  .mk { addr := 48, isGroup := true, link := some (undefAddr, undefAddr),
        attrs := [⟨ascii "title", [], .str 4, .value (ascii "demo")⟩] } [ncFileX, ncFileV]

theorem ncFile_holds : FileHolds ncFile ncFileTree := by
  refine ⟨48, undefAddr, ncFileTree.info, [], [], [ncFileX, ncFileV], [], ?_, by decide, .inl rfl, ?_, rfl, ?_,
    .none, by decide, by decide, rfl⟩
  · exact .inr ⟨2, 0, 691, .inl rfl, by decide, by decide +kernel, by decide, by decide, by unfold At; decide +kernel⟩
  · refine .header2 (hd := head0) (ms := ncRoot 148 380) head0_ok ?_ (by decide +kernel)
      (by decide +kernel) (by decide) (by unfold At; decide +kernel)
      (.plain rfl rfl (.link ?_ (.link ?_ (.plain rfl trivial .nil))))
    · intro x hx
      simp only [ncRoot, List.mem_cons, List.not_mem_nil, or_false] at hx
      rcases hx with rfl | rfl | rfl | rfl
      · exact ⟨by decide, by decide, ⟨by simp, by simp, by decide, by decide⟩, by decide +kernel⟩
      · exact ⟨by decide, by decide, ⟨by decide, by simp, by simp, by decide, by decide⟩, by decide +kernel⟩
      · exact ⟨by decide, by decide, ⟨by decide, by simp, by simp, by decide, by decide⟩, by decide +kernel⟩
      · exact ⟨by decide, by decide, ⟨.inr (.inr rfl), by decide, by decide, by simp [DType.Readable],
          by decide +kernel, by simp [Space.OK, Fmt.ShapeOK], rfl⟩, by decide +kernel⟩
    · refine .object (kids1 := []) (kids2 := []) (as := []) (ls := []) (i := ncFileX.info) ?_ rfl rfl .none .nil
      refine .header2 (hd := head0) (ms := ncX 380) head0_ok ?_ (by decide +kernel)
        (by decide +kernel) (by decide) (by unfold At; decide +kernel)
        (.plain rfl trivial (.plain rfl rfl (.plain rfl trivial (.plain rfl trivial (.plain rfl trivial
          (.plain rfl trivial .nil))))))
      intro x hx
      simp only [ncX, List.mem_cons, List.not_mem_nil, or_false] at hx
      rcases hx with rfl | rfl | rfl | rfl | rfl | rfl
      · exact ⟨by decide, by decide, ⟨by decide, by decide, by decide, by simp⟩, by decide +kernel⟩
      · exact ⟨by decide, by decide, by simp [Message.OK, DType.Readable, IntSize], by decide +kernel⟩
      · exact ⟨by decide, by decide, ⟨.inl rfl, by decide⟩, by decide +kernel⟩
      · exact ⟨by decide, by decide, ⟨.inr (.inr rfl), by decide, by decide, by simp [DType.Readable],
          by decide +kernel, by simp [Space.OK, Fmt.ShapeOK], rfl⟩, by decide +kernel⟩
      · exact ⟨by decide, by decide, ⟨.inr (.inr rfl), by decide, by decide, by simp [DType.Readable],
          by decide +kernel, by simp [Space.OK, Fmt.ShapeOK], rfl⟩, by decide +kernel⟩
      · exact ⟨by decide, by decide, ⟨.inr (.inr rfl), by decide, by decide,
          by simp [DType.Readable, TypesReadable, ncRefType, MemberOK, offWidth, IntSize]; decide,
          by decide +kernel, by simp [Space.OK, Fmt.ShapeOK], rfl⟩, by decide +kernel⟩
    · refine .object (kids1 := []) (kids2 := []) (as := []) (ls := []) (i := ncFileV.info) ?_ rfl rfl .none .nil
      refine .header2 (hd := head0) (ms := ncV 623 679) head0_ok ?_ (by decide +kernel)
        (by decide +kernel) (by decide) (by unfold At; decide +kernel)
        (.plain rfl trivial (.plain rfl rfl (.plain rfl trivial (.plain rfl trivial (.plain rfl trivial .nil)))))
      intro x hx
      simp only [ncV, List.mem_cons, List.not_mem_nil, or_false] at hx
      rcases hx with rfl | rfl | rfl | rfl | rfl
      · exact ⟨by decide, by decide, ⟨by decide, by decide, by decide, by simp⟩, by decide +kernel⟩
      · exact ⟨by decide, by decide, by simp [Message.OK, ncType, DType.Readable, TypesReadable, MemberOK, offWidth, IntSize]; decide,
          by decide +kernel⟩
      · exact ⟨by decide, by decide, ⟨.inl rfl, by decide, by decide⟩, by decide +kernel⟩
      · exact ⟨by decide, by decide, ⟨.inr (.inr rfl), by decide, by decide, by simp [DType.Readable],
          by decide +kernel, by simp [Space.OK, Fmt.ShapeOK], rfl⟩, by decide +kernel⟩
      · exact ⟨by decide, by decide, ⟨.inr (.inr rfl), by decide, by decide,
          by simp [DType.Readable],
          by decide +kernel, by simp [Space.OK, Fmt.ShapeOK], rfl⟩, by decide +kernel⟩
  · exact linksOf_undef ncFile undefAddr

/-- The values of the attributes. -/
def ncAv (a : Attr) : TVal :=
  match a.data with
  | .value s => .str s
  | _ => if a.name = ascii "DIMENSION_LIST" then .slice (.slice (.num .u64)) [.slice (.num .u64) [.num .u64 148]]
    else .slice .compound [.compound [ascii "dataset", ascii "dimension"] [.num .u64 380, .num .u32 0]]

theorem ncFile_heap : heapLookup ncFile 623 1 = .ok (some (leEnc 8 148)) := by decide +kernel

theorem ncFileV_shown : AttrsShown castOK (heapLookup ncFile) ncAv ncFileV.info := by
  refine ⟨⟨[0], by decide +kernel⟩, ?_⟩
  intro a ha
  simp only [ncFileV, Obj.info, List.mem_cons, List.not_mem_nil, or_false] at ha
  rcases ha with rfl | rfl
  · exact ⟨.text _ rfl rfl, trivial⟩
  · refine ⟨.data (num 4 1 ++ num 8 623 ++ num 4 1) [] rfl (by decide) ?_, rfl, trivial, trivial⟩
    have h : Shown (heapLookup ncFile) (.vlen 16 false (.ref 8)) [] (leEnc 4 1 ++ (leEnc 8 623 ++ leEnc 4 1))
        (.slice (.num .u64) [.num .u64 148]) :=
      .seq (.ref 8) 623 1 1 (fun _ => leEnc 8 148) (fun _ => .num .u64 148) [] (by decide) (by decide) (by decide) (by decide)
        ncFile_heap (fun _ _ => .ref 148 (by decide))
    exact .rows (.vlen 16 false (.ref 8)) 1 [] (fun _ => leEnc 4 1 ++ (leEnc 8 623 ++ leEnc 4 1))
      (fun _ => .slice (.num .u64) [.num .u64 148]) trivial (by simp) (fun _ _ => h)

theorem ncFileX_shown : AttrsShown castOK (heapLookup ncFile) ncAv ncFileX.info := by
  refine ⟨⟨[0], by decide +kernel⟩, ?_⟩
  intro a ha
  simp only [ncFileX, Obj.info, List.mem_cons, List.not_mem_nil, or_false] at ha
  rcases ha with rfl | rfl | rfl
  · exact ⟨.text _ rfl rfl, trivial⟩
  · exact ⟨.text _ rfl rfl, trivial⟩
  · refine ⟨.data (num 8 380 ++ num 4 0) [] rfl (by decide) ?_, rfl, by decide, by decide, ?_, trivial, trivial, trivial⟩
    · refine .rows _ 1 [] (fun _ => num 8 380 ++ num 4 0)
        (fun _ => .compound [ascii "dataset", ascii "dimension"] [.num .u64 380, .num .u32 0]) trivial (by simp) fun _ _ => ?_
      refine .compound (b := num 8 380 ++ num 4 0) _ _ _ rfl rfl ?_ ?_
      · intro i m t hm ht
        match i with
        | 0 | 1 => cases hm; cases ht; decide
        | n + 2 => simp at hm
      · intro i m t v hm ht hv
        match i with
        | 0 => cases hm; cases ht; cases hv; exact .ref 380 (by decide)
        | 1 => cases hm; cases ht; cases hv; exact .num false .u32 0 (by decide)
        | n + 2 => simp at hm
    · intro x hx
      simp only [DType.dt, typesDt, List.map, List.zip_cons_cons, List.zip_nil_right, List.mem_cons,
        List.not_mem_nil, or_false] at hx
      rcases hx with rfl | rfl <;> trivial

theorem ncFile_flat : FlatVar ncFile ncFileV.info cellDT [2] cellBytes [0] :=
  ⟨rfl, rfl, rfl, by decide +kernel, by decide, by decide, by decide, fun idx => by unfold cellBytes; split <;> rfl,
    .zero _ rfl rfl (by simp), by decide, .inl ⟨679, rfl, by unfold At; decide +kernel⟩⟩

/-- The variable: two cells, the dimension `x`, and the attribute `units`. -/
example : ∃ o' G, OpensTo ncFile o' ∧ (rootGroup o').getGroup (ascii "/") = .ok G ∧
    ∀ (inflate : Bytes → Res Bytes) (fuel : Nat),
      (G.getVariableT castOK ⟨inflate, fuel, ncFile⟩ [] (ascii "v")).2 =
        .ok ⟨.slice .compound [cellVal 0x102 3 4 1, cellVal 7 5 6 2], [ascii "x"], [(ascii "units", .str (ascii "K"))]⟩ :=
  C56_flat_partial ncFile ncFileTree (by decide +kernel) ncFile_holds [] (ascii "/") (.nil 1) (by decide) ncFileTree ncFileV
    (ascii "v") rfl rfl ⟨rfl, .inl (by decide +kernel)⟩ [2] cellDT cellBytes [0] _ rfl rfl ncFile_flat
    (Shown.table (dt := cellDT) trivial (by rintro ⟨⟩) (val := cellVals) fun idx _ => cellShown _ idx) legible_cell ncAv [ascii "x"]
    (.listed [⟨ascii "units", [], .str 2, .value (ascii "K")⟩] []
      ⟨ascii "DIMENSION_LIST", [1], .vlen 16 false (.ref 8), .df (num 4 1 ++ num 8 623 ++ num 4 1)⟩ [ncFileX] rfl rfl
      (by decide +kernel) (by simp) (by simp) (by
        intro k hk
        cases List.mem_singleton.1 hk
        exact ⟨.child _ (List.mem_cons_self ..), by decide⟩) rfl)
    ncFileV_shown (by
      intro a ha n x
      simp only [ncFileV, Obj.info, List.mem_cons, List.not_mem_nil, or_false] at ha
      rcases ha with rfl | rfl <;> rintro ⟨⟩) (by decide +kernel)

/-- The coordinate variable: two numbers, and itself as dimension. -/
example : ∃ o' G, OpensTo ncFile o' ∧ (rootGroup o').getGroup (ascii "/") = .ok G ∧
    ∀ (inflate : Bytes → Res Bytes) (fuel : Nat),
      (G.getVariableT castOK ⟨inflate, fuel, ncFile⟩ [] (ascii "x")).2 =
        .ok ⟨.slice (.num .u8) [.num .u8 10, .num .u8 20], [ascii "x"], []⟩ := by
  refine C56_flat_partial ncFile ncFileTree (by decide +kernel) ncFile_holds [] (ascii "/") (.nil 1) (by decide) ncFileTree ncFileX
    (ascii "x") rfl rfl ⟨rfl, .inr ⟨⟨ascii "NAME", [], .str 2, .value (ascii "x")⟩, by simp [ncFileX, Obj.info], rfl, ascii "x", rfl,
      by decide +kernel⟩⟩ [2] byteDT (fun idx => if idx = [0] then [10] else [20]) [0] _ rfl rfl
    ⟨rfl, rfl, rfl, by decide +kernel, by decide, by decide, by decide, fun idx => by split <;> rfl,
      .zero _ rfl rfl (by simp), by decide, .inr (.inl rfl)⟩ (shown_line _ [10, 20]) trivial ncAv [ascii "x"]
    (.coordinate [⟨ascii "CLASS", [], .str 16, .value (ascii "DIMENSION_SCALE")⟩]
      [⟨ascii "REFERENCE_LIST", [1], ncRefType.dt, .df (num 8 380 ++ num 4 0)⟩] ⟨ascii "NAME", [], .str 2, .value (ascii "x")⟩
      (ascii "x") (by decide +kernel) ?_ rfl (by decide +kernel) rfl (by simp) rfl (by decide +kernel)) ncFileX_shown
    (by
      intro a ha n x
      simp only [ncFileX, Obj.info, List.mem_cons, List.not_mem_nil, or_false] at ha
      rcases ha with rfl | rfl | rfl <;> rintro ⟨⟩) (by decide +kernel)
  have hin : ∀ k, Within ncFileTree k → k = ncFileX ∨ k = ncFileV := by
    intro k hk
    induction hk with
    | child k hk => simpa [ncFileTree, Obj.kids] using hk
    | deeper m k _ hk ih => rcases ih with rfl | rfl <;> cases hk
  intro k hk
  refine ⟨ncAv, ?_⟩
  rcases hk with rfl | hk
  · refine ⟨⟨⟨[0], by decide +kernel⟩, ?_⟩, ?_⟩
    · intro a ha
      cases List.mem_singleton.1 ha
      exact ⟨.text _ rfl rfl, trivial⟩
    · intro a ha hn
      cases List.mem_singleton.1 ha
      exact absurd hn (by decide)
  rcases hin k hk with rfl | rfl
  · refine ⟨ncFileX_shown, ?_⟩
    intro a ha hn
    simp only [ncFileX, Obj.info, List.mem_cons, List.not_mem_nil, or_false] at ha
    rcases ha with rfl | rfl | rfl
    · exact absurd hn (by decide)
    · exact absurd hn (by decide)
    · exact ⟨by simp, [([ascii "dataset", ascii "dimension"], 380, .u32, 0)], by simp, rfl⟩
  · refine ⟨ncFileV_shown, ?_⟩
    intro a ha hn
    simp only [ncFileV, Obj.info, List.mem_cons, List.not_mem_nil, or_false] at ha
    rcases ha with rfl | rfl <;> exact absurd hn (by decide)

/-- The title. -/
example : ∃ o' G, OpensTo ncFile o' ∧ (rootGroup o').getGroup (ascii "/") = .ok G ∧
    ∀ (inflate : Bytes → Res Bytes) (fuel : Nat),
      G.attributesT castOK ⟨inflate, fuel, ncFile⟩ = .ok [(ascii "title", .str (ascii "demo"))] :=
  C56_group_attributes_partial ncFile ncFileTree (by decide +kernel) ncFile_holds [] (ascii "/") (.nil 1) (by decide) ncFileTree rfl
    ncAv ⟨⟨[0], by decide +kernel⟩, by
      intro a ha
      cases List.mem_singleton.1 ha
      exact ⟨.text _ rfl rfl, trivial⟩⟩ (by
      intro a ha n x
      cases List.mem_singleton.1 ha
      rintro ⟨⟩) (by decide)

/-! ### What fails -/

/-- The attributes of a coordinate variable with two dimensions. -/
def gridAttrs : List Attr :=
  [⟨ascii "CLASS", [], .str 16, .value (ascii "DIMENSION_SCALE")⟩, ⟨ascii "NAME", [], .str 2, .value (ascii "t")⟩,
    ⟨ascii "_Netcdf4Coordinates", [2], byteDT, .df [0, 1]⟩]
/-- Their values. -/
def gridAv (a : Attr) : TVal :=
  match a.data with
  | .value s => .str s
  | _ => .slice (.num .u8) [.num .u8 0, .num .u8 1]
/-- The variable. -/
def gridObj : Obj :=
  .mk { name := ascii "t", dims := some [2, 3], dt := some byteDT, blocks := [.raw [1, 2, 3, 4, 5, 6]], attrs := gridAttrs } []

/-- C56 fails for coordinate variables with several dimensions, which have no `DIMENSION_LIST`: only the
name of the first is returned. -/
theorem C56_negation_coordinate : ∃ (v : Obj) (av : Attr → TVal), v.info.dims = some [2, 3] ∧ IsVariable v ∧
    AttrsShown castOK noHeap av v.info ∧ ∀ s root, parseTreeT castOK (heapLookup s.file) root = .ok () →
      varMetaT castOK s root v = .ok ([ascii "t"], []) := by
  refine ⟨gridObj, gridAv, rfl,
    ⟨rfl, .inr ⟨⟨ascii "NAME", [], .str 2, .value (ascii "t")⟩, by simp [gridObj, gridAttrs, Obj.info], rfl, ascii "t", rfl,
      by decide +kernel⟩⟩, ⟨⟨[0], by decide +kernel⟩, ?_⟩, ?_⟩
  · intro a ha
    simp only [gridObj, gridAttrs, Obj.info, List.mem_cons, List.not_mem_nil, or_false] at ha
    rcases ha with rfl | rfl | rfl
    · exact ⟨.text _ rfl rfl, trivial⟩
    · exact ⟨.text _ rfl rfl, trivial⟩
    · exact ⟨.data [0, 1] [] rfl (by decide) (shown_line _ [0, 1]), trivial⟩
  · intro s root h
    have h1 : ∀ heap, parseAttrsT castOK heap gridObj.info gridObj.info.attrs = .ok (gridAttrs.map fun a => (a, gridAv a)) :=
      fun _ => rfl
    have h2 : ∀ idx, listedDimsT idx (gridAttrs.map fun a => (a, gridAv a)) = .ok [] := fun _ => rfl
    simp only [varMetaT, h1, getDimensionsT, h2, h]
    rfl

/-- Two scales, -/
def twoX : Obj := .mk { name := ascii "x", addr := 10 } []
def twoY : Obj := .mk { name := ascii "y", addr := 20 } []
/-- a list with both of them, -/
def twoAttr : Attr := ⟨ascii "DIMENSION_LIST", [1], .vlen 16 false (.ref 8), .df (num 4 2 ++ num 8 64 ++ num 4 1)⟩
/-- and a variable. -/
def twoV : Obj := .mk { name := ascii "v", dims := some [2], dt := some byteDT, addr := 30, attrs := [twoAttr] } []

/-- C56 fails when two scales are attached to one dimension: there are more names than dimensions. -/
theorem C56_negation_scales : ∃ (root v x y : Obj) (a : Attr) (heap : HeapFn) (val : TVal),
    root.kids = [x, y, v] ∧ x.info.name = ascii "x" ∧ y.info.name = ascii "y" ∧ v.info.dims = some [2] ∧
    v.info.attrs = [a] ∧ a.name = ascii "DIMENSION_LIST" ∧ AttrShown heap a val ∧
    val = .slice (.slice (.num .u64)) [.slice (.num .u64) [.num .u64 x.info.addr, .num .u64 y.info.addr]] ∧
    parseAttrsT castOK heap v.info v.info.attrs = .ok [(a, val)] ∧
    getDimensionsT castOK heap root [(a, val)] = .ok [ascii "x", ascii "y"] := by
  refine ⟨.mk {} [twoX, twoY, twoV], twoV, twoX, twoY, twoAttr, fun _ _ => .ok (some (leEnc 8 10 ++ leEnc 8 20)),
    .slice (.slice (.num .u64)) [.slice (.num .u64) [.num .u64 10, .num .u64 20]], rfl, rfl, rfl, rfl, rfl, rfl, ?_, rfl, rfl, rfl⟩
  refine .data (num 4 2 ++ num 8 64 ++ num 4 1) [] rfl (by decide) ?_
  have h : Shown (fun _ _ => .ok (some (leEnc 8 10 ++ leEnc 8 20))) (.vlen 16 false (.ref 8)) []
      (leEnc 4 2 ++ (leEnc 8 64 ++ leEnc 4 1)) (.slice (.num .u64) [.num .u64 10, .num .u64 20]) :=
    .seq (.ref 8) 64 1 2 (fun i => leEnc 8 (10 + i * 10)) (fun i => .num .u64 (10 + i * 10)) [] (by decide) (by decide) (by decide)
      (by decide) rfl (fun i hi => .ref _ (by omega))
  exact .rows (.vlen 16 false (.ref 8)) 1 [] (fun _ => leEnc 4 2 ++ (leEnc 8 64 ++ leEnc 4 1))
    (fun _ => .slice (.num .u64) [.num .u64 10, .num .u64 20]) trivial (by simp) (fun _ _ => h)

end Verif.H5
