import Verif.Props.H5Names
import Verif.Props.H5VarsEx
/-!
C57: a file that meets the hypotheses, and what is not so.
-/
namespace Verif.H5
open Fmt

/-! ### A netCDF-4 file with types -/

/-- An enumeration. -/
def tyColor : DType := .enum 3 1 1 false false [ascii "red", ascii "blue"] [1, 2]

/-- The root group has two types, two variables and an attribute. -/
def tyRoot (cell color x v : Nat) : List (Nat × Nat × Message) :=
  [(0, 0, .linkInfo none none undefAddr undefAddr), (0, 0, .link 0 false none none (ascii "cell") cell),
    (0, 0, .link 0 false none none (ascii "color") color), (0, 0, .link 0 false none none (ascii "x") x),
    (0, 0, .link 0 false none none (ascii "v") v),
    (0, 0, .attr 3 (ascii "hue") tyColor (.v2 1 [2] none) [2, 1] (.df [2, 1]))]

/-- The file. -/
def tyFile : Bytes :=
  block (superNew 2 0 undefAddr 903 48) ++ header2 head0 (tyRoot 214 314 360 592) ++ header2 head0 [(0, 0, .datatype ncType)] ++
    header2 head0 [(0, 0, .datatype tyColor)] ++ header2 head0 (ncX 592) ++ header2 head0 (ncV 835 891) ++ ncHeap 360 ++ ncData

/-- The types in it, -/
def tyFileCell : Obj := .mk { name := ascii "cell", addr := 214, dt := some cellDT } []
/-- an enumeration, -/
def tyFileColor : Obj := .mk { name := ascii "color", addr := 314, dt := some tyColor.dt } []
/-- a coordinate variable, -/
def tyFileX : Obj :=
  .mk { name := ascii "x", addr := 360, dims := some [2], dt := some byteDT, blocks := [.raw [10, 20]],
        attrs := [⟨ascii "CLASS", [], .str 16, .value (ascii "DIMENSION_SCALE")⟩, ⟨ascii "NAME", [], .str 2, .value (ascii "x")⟩,
          ⟨ascii "REFERENCE_LIST", [1], ncRefType.dt, .df (num 8 592 ++ num 4 0)⟩] } []
/-- a variable, -/
def tyFileV : Obj :=
  .mk { name := ascii "v", addr := 592, dims := some [2], dt := some cellDT, blocks := [.at 891 12],
        attrs := [⟨ascii "units", [], .str 2, .value (ascii "K")⟩,
          ⟨ascii "DIMENSION_LIST", [1], .vlen 16 false (.ref 8), .df (num 4 1 ++ num 8 835 ++ num 4 1)⟩] } []
/-- and the root group. -/
def tyFileTree : Obj :=
  .mk { addr := 48, isGroup := true, link := some (undefAddr, undefAddr),
        attrs := [⟨ascii "hue", [2], tyColor.dt, .df [2, 1]⟩] } [tyFileCell, tyFileColor, tyFileX, tyFileV]

theorem tyFile_holds : FileHolds tyFile tyFileTree := by
  refine ⟨48, undefAddr, tyFileTree.info, [], [], [tyFileCell, tyFileColor, tyFileX, tyFileV], [], ?_, by decide, .inl rfl, ?_, rfl, ?_,
    .none, by decide, by decide, rfl⟩
  · exact .inr ⟨2, 0, 903, .inl rfl, by decide, by decide +kernel, by decide, by decide, by unfold At; decide +kernel⟩
  · refine .header2 (hd := head0) (ms := tyRoot 214 314 360 592) head0_ok ?_ (by decide +kernel)
      (by decide +kernel) (by decide) (by unfold At; decide +kernel)
      (.plain rfl rfl (.link ?_ (.link ?_ (.link ?_ (.link ?_ (.plain rfl trivial .nil))))))
    · intro x hx
      simp only [tyRoot, List.mem_cons, List.not_mem_nil, or_false] at hx
      rcases hx with rfl | rfl | rfl | rfl | rfl | rfl
      · exact ⟨by decide, by decide, ⟨by simp, by simp, by decide, by decide⟩, by decide +kernel⟩
      · exact ⟨by decide, by decide, ⟨by decide, by simp, by simp, by decide, by decide⟩, by decide +kernel⟩
      · exact ⟨by decide, by decide, ⟨by decide, by simp, by simp, by decide, by decide⟩, by decide +kernel⟩
      · exact ⟨by decide, by decide, ⟨by decide, by simp, by simp, by decide, by decide⟩, by decide +kernel⟩
      · exact ⟨by decide, by decide, ⟨by decide, by simp, by simp, by decide, by decide⟩, by decide +kernel⟩
      · exact ⟨by decide, by decide, ⟨.inr (.inr rfl), by decide, by decide,
          by simp [tyColor, DType.Readable, IntSize]; decide,
          by decide +kernel, by simp [Space.OK, Fmt.ShapeOK], rfl⟩, by decide +kernel⟩
    · refine .object (kids1 := []) (kids2 := []) (as := []) (ls := []) (i := tyFileCell.info) ?_ rfl rfl .none .nil
      refine .header2 (hd := head0) (ms := [(0, 0, .datatype ncType)]) head0_ok ?_ (by decide +kernel)
        (by decide +kernel) (by decide) (by unfold At; decide +kernel) (.plain rfl rfl .nil)
      intro x hx
      cases List.mem_singleton.1 hx
      exact ⟨by decide, by decide, by simp [Message.OK, ncType, DType.Readable, TypesReadable, MemberOK, offWidth, IntSize]; decide,
          by decide +kernel⟩
    · refine .object (kids1 := []) (kids2 := []) (as := []) (ls := []) (i := tyFileColor.info) ?_ rfl rfl .none .nil
      refine .header2 (hd := head0) (ms := [(0, 0, .datatype tyColor)]) head0_ok ?_ (by decide +kernel)
        (by decide +kernel) (by decide) (by unfold At; decide +kernel) (.plain rfl rfl .nil)
      intro x hx
      cases List.mem_singleton.1 hx
      exact ⟨by decide, by decide, by simp [Message.OK, tyColor, DType.Readable, IntSize]; decide, by decide +kernel⟩
    · refine .object (kids1 := []) (kids2 := []) (as := []) (ls := []) (i := tyFileX.info) ?_ rfl rfl .none .nil
      refine .header2 (hd := head0) (ms := ncX 592) head0_ok ?_ (by decide +kernel)
        (by decide +kernel) (by decide) (by unfold At; decide +kernel)
        (.plain rfl trivial (.plain rfl rfl (.plain rfl trivial (.plain rfl trivial (.plain rfl trivial
          (.plain rfl trivial .nil))))))
      intro x hx
      simp only [ncX, List.mem_cons, List.not_mem_nil, or_false] at hx
      rcases hx with rfl | rfl | rfl | rfl | rfl | rfl
      · exact ⟨by decide, by decide, ⟨by decide, by decide, by decide, by simp⟩, by decide +kernel⟩
      · exact ⟨by decide, by decide, by simp [Message.OK, DType.Readable, IntSize], by decide +kernel⟩
      · exact ⟨by decide, by decide, ⟨.inl rfl, by decide⟩, by decide +kernel⟩
      · exact ⟨by decide, by decide, ⟨.inr (.inr rfl), by decide, by decide, by simp [DType.Readable],
          by decide +kernel, by simp [Space.OK, Fmt.ShapeOK], rfl⟩, by decide +kernel⟩
      · exact ⟨by decide, by decide, ⟨.inr (.inr rfl), by decide, by decide, by simp [DType.Readable],
          by decide +kernel, by simp [Space.OK, Fmt.ShapeOK], rfl⟩, by decide +kernel⟩
      · exact ⟨by decide, by decide, ⟨.inr (.inr rfl), by decide, by decide,
          by simp [DType.Readable, TypesReadable, ncRefType, MemberOK, offWidth, IntSize]; decide,
          by decide +kernel, by simp [Space.OK, Fmt.ShapeOK], rfl⟩, by decide +kernel⟩
    · refine .object (kids1 := []) (kids2 := []) (as := []) (ls := []) (i := tyFileV.info) ?_ rfl rfl .none .nil
      refine .header2 (hd := head0) (ms := ncV 835 891) head0_ok ?_ (by decide +kernel)
        (by decide +kernel) (by decide) (by unfold At; decide +kernel)
        (.plain rfl trivial (.plain rfl rfl (.plain rfl trivial (.plain rfl trivial (.plain rfl trivial .nil)))))
      intro x hx
      simp only [ncV, List.mem_cons, List.not_mem_nil, or_false] at hx
      rcases hx with rfl | rfl | rfl | rfl | rfl
      · exact ⟨by decide, by decide, ⟨by decide, by decide, by decide, by simp⟩, by decide +kernel⟩
      · exact ⟨by decide, by decide, by simp [Message.OK, ncType, DType.Readable, TypesReadable, MemberOK, offWidth, IntSize]; decide,
          by decide +kernel⟩
      · exact ⟨by decide, by decide, ⟨.inl rfl, by decide, by decide⟩, by decide +kernel⟩
      · exact ⟨by decide, by decide, ⟨.inr (.inr rfl), by decide, by decide, by simp [DType.Readable],
          by decide +kernel, by simp [Space.OK, Fmt.ShapeOK], rfl⟩, by decide +kernel⟩
      · exact ⟨by decide, by decide, ⟨.inr (.inr rfl), by decide, by decide,
          by simp [DType.Readable],
          by decide +kernel, by simp [Space.OK, Fmt.ShapeOK], rfl⟩, by decide +kernel⟩
  · exact linksOf_undef tyFile undefAddr

/-- `color` -/
def tyColorTy : Ty := .enum .u8 [ascii "red", ascii "blue"] [1, 2]
/-- `cell` -/
def tyCellTy : Ty := .compound [ascii "n", ascii "p", ascii "c"] [.num .u16, .array [2] (.num .u8), tyColorTy]
/-- The types of the file. -/
def tyCat : List (Bytes × Ty) := [(ascii "cell", tyCellTy), (ascii "color", tyColorTy)]

theorem tyIsName {n : Bytes} (h : decide (n ≠ []) && n.all nameByte = true) : IsName n := by
  simpa [IsName] using h

theorem tyCell_ok : tyCellTy.Ok := by
  simp only [tyCellTy, tyColorTy, Ty.Ok, Ty.OkAll]
  refine ⟨rfl, by simp, ?_, trivial, ⟨by simp, trivial⟩, ⟨rfl, by simp, ?_⟩, trivial⟩
  · intro n hn
    simp only [List.mem_cons, List.not_mem_nil, or_false] at hn
    rcases hn with rfl | rfl | rfl <;> exact tyIsName (by decide)
  · intro n hn
    simp only [List.mem_cons, List.not_mem_nil, or_false] at hn
    rcases hn with rfl | rfl <;> exact tyIsName (by decide)

theorem tyTypes : TypesOf tyFileTree tyCat where
  stored := by decide +kernel
  links := by decide +kernel
  apart := by decide +kernel
  plain := by
    intro p hp
    simp only [tyCat, List.mem_cons, List.not_mem_nil, or_false] at hp
    rcases hp with rfl | rfl
    · exact ⟨by rintro ds t ⟨⟩, tyCell_ok, tyIsName (by decide), by decide⟩
    · refine ⟨by rintro ds t ⟨⟩, ?_, tyIsName (by decide), by decide⟩
      have := tyCell_ok
      simp only [tyCellTy, Ty.Ok, Ty.OkAll] at this
      exact this.2.2.2.2.2.1
  bare := by
    intro k hk
    simp only [tyFileTree, Obj.kids, List.mem_cons, List.not_mem_nil, or_false] at hk
    rcases hk with rfl | rfl | rfl | rfl
    · intros; rfl
    · intros; rfl
    · intro _ h; cases h
    · intro _ h; cases h

theorem tyClear : ∀ p ∈ tyCat, ¬ p.2.Has (vague false) := by
  intro p hp
  simp only [tyCat, List.mem_cons, List.not_mem_nil, or_false] at hp
  rcases hp with rfl | rfl <;> simp [tyCellTy, tyColorTy, Ty.Has, Ty.HasAny, vague]

/-- The variable has the type `cell`, before and after its values are read. -/
example : ∃ o' G, OpensTo tyFile o' ∧ (rootGroup o').getGroup (ascii "/") = .ok G ∧
    ∀ ord, Iteration ord → ∀ tab, Untouched tab tyFileV → G.varType ord .cdl tab (ascii "v") = .ok (ascii "cell") :=
  C57_type_partial tyFile tyFileTree (by decide +kernel) tyFile_holds [] (ascii "/") (.nil 1) (by decide) tyFileTree tyFileV
    (ascii "v") rfl rfl ⟨rfl, .inl (by decide +kernel)⟩ tyCat tyTypes cellDT tyCellTy rfl (by decide +kernel) tyCell_ok

/-- Also in Go. -/
example : ∃ o' G, OpensTo tyFile o' ∧ (rootGroup o').getGroup (ascii "/") = .ok G ∧
    ∀ ord, Iteration ord → ∀ tab, Untouched tab tyFileV → G.varType ord .go tab (ascii "v") = .ok (ascii "cell") :=
  C57_go_type_partial tyFile tyFileTree (by decide +kernel) tyFile_holds [] (ascii "/") (.nil 1) (by decide) tyFileTree tyFileV
    (ascii "v") rfl rfl ⟨rfl, .inl (by decide +kernel)⟩ tyCat tyTypes false tyClear cellDT tyCellTy rfl (by decide +kernel) tyCell_ok
    (tyClear (ascii "cell", tyCellTy) (by simp [tyCat]))

/-- The types of the file. -/
example : ∃ o' G, OpensTo tyFile o' ∧ (rootGroup o').getGroup (ascii "/") = .ok G ∧ G.listTypes = [ascii "cell", ascii "color"] ∧
    ∀ ord, Iteration ord →
      G.getType ord (ascii "cell") = .ok (some (ascii "compound {\n\tushort n;\n\tubyte(2) p;\n\tcolor c;\n}")) ∧
      G.getType ord (ascii "color") = .ok (some (ascii "ubyte enum {\n\tred = 1,\n\tblue = 2\n}")) ∧
      G.getGoType ord (ascii "cell") = .ok (some (ascii "type cell struct {\n\tn uint16\n\tp [2]uint8\n\tc color\n}\n")) ∧
      G.getGoType ord (ascii "color") = .ok (some (ascii "type color uint8\nconst (\n\tred color = 1\n\tblue = 2\n)\n")) ∧
      G.getType ord (ascii "v") = .ok none := by
  obtain ⟨o', G, h1, h2, h3, h4⟩ := C57_declared_partial tyFile tyFileTree (by decide +kernel) tyFile_holds [] (ascii "/") (.nil 1)
    (by decide) tyFileTree rfl tyCat tyTypes
  refine ⟨o', G, h1, h2, h3, fun ord hord => ?_⟩
  obtain ⟨h5, h6, h7⟩ := h4 ord hord
  refine ⟨(h5 _ tyCellTy (by simp [tyCat])).trans (by decide +kernel), (h5 _ tyColorTy (by simp [tyCat])).trans (by decide +kernel),
    (h6 false tyClear _ tyCellTy (by simp [tyCat])).trans (by decide +kernel),
    (h6 false tyClear _ tyColorTy (by simp [tyCat])).trans (by decide +kernel), (h7 _ (by decide)).1⟩

/-- The attribute `hue` has two colors. -/
example : ∃ o', OpensTo tyFile o' ∧ ∀ ord, Iteration ord →
    (rootGroup o').attrType ord .cdl [(ascii "hue", .num .u8 2)] (ascii "hue") = .ok (some (ascii "color(*)")) ∧
    (rootGroup o').attrType ord .go [(ascii "hue", .num .u8 2)] (ascii "hue") = .ok (some (ascii "[]color")) := by
  obtain ⟨o', h1, h2⟩ := C57_global_attribute_partial tyFile tyFileTree (by decide +kernel) tyFile_holds tyCat tyTypes
    ⟨ascii "hue", [2], tyColor.dt, .df [2, 1]⟩ (by simp [tyFileTree, Obj.info]) (by decide) tyColorTy (by decide +kernel)
    (tyTypes.plain (ascii "color", tyColorTy) (by simp [tyCat])).2.1 (by rintro ds u ⟨⟩) [(ascii "hue", .num .u8 2)] (by decide)
  refine ⟨o', h1, fun ord hord => ?_⟩
  exact ⟨(h2 ord hord).1.trans (by decide +kernel), ((h2 ord hord).2 false tyClear (tyClear (ascii "color", tyColorTy) (by simp [tyCat]))).trans
    (by decide +kernel)⟩

theorem tyFile_heap : heapLookup tyFile 835 1 = .ok (some (leEnc 8 360)) := by decide +kernel

/-- The values of the attributes. -/
def tyAv (a : Attr) : TVal :=
  match a.data with
  | .value s => .str s
  | _ => .slice (.slice (.num .u64)) [.slice (.num .u64) [.num .u64 360]]

/-- The values of `v`, with the names of this file. -/
example : ∃ o' G, OpensTo tyFile o' ∧ (rootGroup o').getGroup (ascii "/") = .ok G ∧
    ∀ ord, Iteration ord → ∀ (inflate : Bytes → Res Bytes) (fuel : Nat),
      (G.getVariableT (G.cast ord) ⟨inflate, fuel, tyFile⟩ [] (ascii "v")).2 =
        .ok ⟨.slice .compound [cellVal 0x102 3 4 1, cellVal 7 5 6 2], [ascii "x"], [(ascii "units", .str (ascii "K"))]⟩ := by
  refine C57_values_partial tyFile tyFileTree (by decide +kernel) tyFile_holds [] (ascii "/") (.nil 1) (by decide) tyFileTree tyFileV
    (ascii "v") rfl rfl ⟨rfl, .inl (by decide +kernel)⟩ tyCat tyTypes false tyClear [2] cellDT cellBytes [0] _ rfl rfl
    ⟨rfl, rfl, rfl, by decide +kernel, by decide, by decide, by decide, fun idx => by unfold cellBytes; split <;> rfl,
      .zero _ rfl rfl (by simp), by decide, .inl ⟨891, rfl, by unfold At; decide +kernel⟩⟩
    (Shown.table (dt := cellDT) trivial (by rintro ⟨⟩) (val := cellVals) fun idx _ => cellShown _ idx) legible_cell
    ⟨tyCellTy, by decide +kernel, tyCell_ok, tyClear (ascii "cell", tyCellTy) (by simp [tyCat])⟩ tyAv [tyFileX]
    [⟨ascii "units", [], .str 2, .value (ascii "K")⟩] []
    ⟨ascii "DIMENSION_LIST", [1], .vlen 16 false (.ref 8), .df (num 4 1 ++ num 8 835 ++ num 4 1)⟩ rfl rfl
    (by decide +kernel) (by simp) (by simp) ?_ rfl ⟨⟨[0], by decide +kernel⟩, ?_⟩ ?_ ?_ (by decide +kernel)
  · intro k hk
    cases List.mem_singleton.1 hk
    exact ⟨.child _ (by simp [tyFileTree, Obj.kids]), by decide⟩
  · intro a ha
    simp only [tyFileV, Obj.info, List.mem_cons, List.not_mem_nil, or_false] at ha
    rcases ha with rfl | rfl
    · exact ⟨.text _ rfl rfl, trivial⟩
    · refine ⟨.data (num 4 1 ++ num 8 835 ++ num 4 1) [] rfl (by decide) ?_, rfl, trivial, trivial⟩
      have h : Shown (heapLookup tyFile) (.vlen 16 false (.ref 8)) [] (leEnc 4 1 ++ (leEnc 8 835 ++ leEnc 4 1))
          (.slice (.num .u64) [.num .u64 360]) :=
        .seq (.ref 8) 835 1 1 (fun _ => leEnc 8 360) (fun _ => .num .u64 360) [] (by decide) (by decide) (by decide) (by decide)
          tyFile_heap (fun _ _ => .ref 360 (by decide))
      exact .rows (.vlen 16 false (.ref 8)) 1 [] (fun _ => leEnc 4 1 ++ (leEnc 8 835 ++ leEnc 4 1))
        (fun _ => .slice (.num .u64) [.num .u64 360]) trivial (by simp) (fun _ _ => h)
  · intro a ha
    simp only [tyFileV, Obj.info, List.mem_cons, List.not_mem_nil, or_false] at ha
    rcases ha with rfl | rfl
    · exact ⟨.text, rfl, trivial, by simp [Ty.Has, vague]⟩
    · exact ⟨.seq (.num .u64), rfl, by simp [Ty.Ok], by simp [Ty.Has, vague]⟩
  · intro a ha n x
    simp only [tyFileV, Obj.info, List.mem_cons, List.not_mem_nil, or_false] at ha
    rcases ha with rfl | rfl <;> rintro ⟨⟩

/-! ### What fails -/

theorem findSig_const {ord : List Nat → List NamedType → List NamedType} {types : List NamedType} (h : ∀ p, ord p types = types)
    (nt : Notation) (owner : Bytes) : ∀ fuel, findSig ord types nt owner fuel = findSig (fun _ l => l) types nt owner fuel
  | 0 => by funext u p s; rfl
  | fuel + 1 => by
    funext u p s
    rw [findSig, findSig, h, findSig_const h nt owner fuel]

theorem describe_const {ord : List Nat → List NamedType → List NamedType} {types : List NamedType} (h : ∀ p, ord p types = types) :
    describe ord types = describe (fun _ l => l) types := by
  funext nt owner u d
  rw [describe, describe, findSig_const h]

theorem iteration_one {ord : List Nat → List NamedType → List NamedType} (h : Iteration ord) (x : NamedType) (p : List Nat) :
    ord p [x] = [x] := List.perm_singleton.mp (h p [x])

theorem iteration_none {ord : List Nat → List NamedType → List NamedType} (h : Iteration ord) (p : List Nat) :
    ord p [] = [] := List.perm_nil.mp (h p [])

theorem sigLoop_used (text : Nat → Bytes → DT → Res Bytes) (used : List Bytes) (sig : Bytes) : ∀ (l : List NamedType) (i : Nat),
    (∀ p ∈ l, p.1 ∈ used) → sigLoop text used sig i l = .ok []
  | [], _, _ => rfl
  | (n, t) :: l, i, h => by
    simp only [sigLoop]
    rw [if_pos (h (n, t) (by simp)), sigLoop_used text used sig l (i + 1) fun p hp => h p (by simp [hp])]

/-- A group with these objects. -/
def groupOf (kids : List Obj) : Group := rootGroup (.mk { isGroup := true } kids)

/-- Two types with the same structure, and a variable. -/
def twins : Group :=
  groupOf [.mk { name := ascii "a", dt := some (.opaque 4 false) } [], .mk { name := ascii "b", dt := some (.opaque 4 false) } [],
    .mk { name := ascii "v", dt := some (.opaque 4 false), dims := some [2], addr := 9 } []]

/-- Three types. -/
def triplets : Group :=
  groupOf [.mk { name := ascii "a", dt := some (.opaque 4 false) } [], .mk { name := ascii "b", dt := some (.opaque 4 false) } [],
    .mk { name := ascii "c", dt := some (.opaque 4 false) } [],
    .mk { name := ascii "v", dt := some (.opaque 4 false), dims := some [2], addr := 9 } []]

/-- C57 fails for two types with the same structure: the description of the one is the name of the
other, and a variable of this type has no named type. With three such types it has one of the three,
depending on the order in which Go visits a map. -/
theorem C57_negation_twins : twins.listTypes = [ascii "a", ascii "b"] ∧
    (∀ ord, Iteration ord → twins.getType ord (ascii "a") = .ok (some (ascii "b")) ∧
      twins.getType ord (ascii "b") = .ok (some (ascii "a"))) ∧
    ∃ ord ord', Iteration ord ∧ Iteration ord' ∧ twins.varType ord .cdl [] (ascii "v") = .ok (ascii "opaque(4)") ∧
      triplets.varType ord .cdl [] (ascii "v") = .ok (ascii "a") ∧ triplets.varType ord' .cdl [] (ascii "v") = .ok (ascii "c") := by
  refine ⟨by decide +kernel, ?_, fun _ l => l, fun _ l => l.reverse, fun _ l => List.Perm.refl _, fun _ l => l.reverse_perm,
    by with_unfolding_all rfl, by with_unfolding_all rfl, by with_unfolding_all rfl⟩
  intro ord hord
  have ht : twins.types = [(ascii "a", some (.opaque 4 false)), (ascii "b", some (.opaque 4 false))] := rfl
  have hin : ∀ p x, x ∈ ord p twins.types → x.1 = ascii "a" ∨ x.1 = ascii "b" := by
    intro p x hx
    have := (hord p twins.types).mem_iff.mp hx
    rw [ht] at this
    simp only [List.mem_cons, List.not_mem_nil, or_false] at this
    rcases this with rfl | rfl
    · exact .inl rfl
    · exact .inr rfl
  have hdeep : ∀ nt owner fuel u p s, ascii "a" ∈ u → ascii "b" ∈ u → findSig ord twins.types nt owner (fuel + 1) u p s = .ok [] := by
    intro nt owner fuel u p s h1 h2
    rw [findSig]
    refine sigLoop_used _ _ _ _ _ fun x hx => ?_
    rcases hin p x hx with h | h <;> rw [h] <;> assumption
  have htop : ∀ x y : Bytes, (x = ascii "a" ∧ y = ascii "b") ∨ (x = ascii "b" ∧ y = ascii "a") →
      H5.describe ord twins.types .cdl x [x] (.opaque 4 false) = .ok y := by
    intro x y hxy
    have hp : ∀ l, l.Perm [((ascii "a" : Bytes), some (DT.opaque 4 false)), (ascii "b", some (.opaque 4 false))] →
        l = [(ascii "a", some (.opaque 4 false)), (ascii "b", some (.opaque 4 false))] ∨
        l = [(ascii "b", some (.opaque 4 false)), (ascii "a", some (.opaque 4 false))] := by
      intro l hl
      match l, hl.length_eq with
      | [p, q], _ =>
        have h1 := hl.mem_iff (a := p)
        have h2 := hl.nodup_iff.mpr (by simp [ascii])
        have h3 := hl.mem_iff (a := q)
        simp only [List.mem_cons, List.not_mem_nil, or_false, true_or, or_true, true_iff] at h1 h3
        rcases h1 with rfl | rfl <;> rcases h3 with rfl | rfl
        · simp at h2
        · exact .inl rfl
        · exact .inr rfl
        · simp at h2
    have hl : twins.types.length = 2 := by decide +kernel
    have hinner : ∀ owner fuel u p, ascii "a" ∈ u → ascii "b" ∈ u →
        typeText (findSig ord twins.types .cdl owner (fuel + 1) u) .cdl owner p (.opaque 4 false) = .ok (opaqueText .cdl 4) := by
      intro owner fuel u p h1 h2
      rw [typeText, named, hdeep _ _ _ _ _ _ h1 h2]
      rfl
    have hne : opaqueText .cdl 4 ≠ [] := by decide +kernel
    have hab : ascii "a" ≠ ascii "b" := by decide
    have h0 : ascii "a" ≠ [] ∧ ascii "b" ≠ [] := by decide
    have h := hp (ord [] twins.types) (by have := hord [] twins.types; rw [ht] at this ⊢; exact this)
    have main : ∀ w : Bytes, sigLoop (fun i n t => typeText (findSig ord twins.types .cdl w 2 (n :: [w])) .cdl w (i :: 0 :: []) t) [w]
        (opaqueText .cdl 4) 0 (ord [] twins.types) = .ok (if w = ascii "a" then ascii "b" else ascii "a") → 
        H5.describe ord twins.types .cdl w [w] (.opaque 4 false) = .ok (if w = ascii "a" then ascii "b" else ascii "a") := by
      intro w hw
      unfold H5.describe
      rw [hl, typeText, named, findSig, hw]
      show Res.ok _ = _
      split <;> simp [h0]
    rcases hxy with ⟨rfl, rfl⟩ | ⟨rfl, rfl⟩
    · have := main (ascii "a")
      rw [if_pos rfl] at this
      refine this ?_
      rcases h with h | h <;> rw [h]
      · simp only [sigLoop]
        rw [if_pos (by simp), if_neg (by simp [hab.symm]), hinner _ _ _ _ (by simp) (by simp)]
        show (if _ then _ else _) = _
        rw [if_pos ⟨hne, rfl⟩]
        rfl
      · simp only [sigLoop]
        rw [if_neg (by simp [hab.symm]), hinner _ _ _ _ (by simp) (by simp)]
        show (if _ then _ else _) = _
        rw [if_pos ⟨hne, rfl⟩]
        rfl
    · have := main (ascii "b")
      rw [if_neg hab.symm] at this
      refine this ?_
      rcases h with h | h <;> rw [h]
      · simp only [sigLoop]
        rw [if_neg (by simp [hab]), hinner _ _ _ _ (by simp) (by simp)]
        show (if _ then _ else _) = _
        rw [if_pos ⟨hne, rfl⟩]
        rfl
      · simp only [sigLoop]
        rw [if_pos (by simp), if_neg (by simp [hab]), hinner _ _ _ _ (by simp) (by simp)]
        show (if _ then _ else _) = _
        rw [if_pos ⟨hne, rfl⟩]
        rfl
  have ha : twins.getType ord (ascii "a") = escape ((H5.describe ord twins.types .cdl (ascii "a") [ascii "a"] (.opaque 4 false)).map some) := rfl
  have hb : twins.getType ord (ascii "b") = escape ((H5.describe ord twins.types .cdl (ascii "b") [ascii "b"] (.opaque 4 false)).map some) := rfl
  rw [ha, hb, htop _ _ (.inl ⟨rfl, rfl⟩), htop _ _ (.inr ⟨rfl, rfl⟩)]
  exact ⟨rfl, rfl⟩

/-- A type with two bytes. -/
def vagueDT : DT := .compound 2 [(ascii "p", 0, none)] [.array 2 [2] byteDT]
/-- An opaque type of two bytes, and a variable of the other type. -/
def vagueGroup : Group :=
  groupOf [.mk { name := ascii "o", dt := some (.opaque 2 false) } [],
    .mk { name := ascii "v", dt := some vagueDT, dims := some [], addr := 9, blocks := [.raw [3, 4]] } []]

/-- C57 fails in Go for arrays of bytes besides opaque types: a variable that could be read without the
type `o` cannot be read with it, nor is there a getter for it. -/
theorem C57_negation_vague : TypesOf vagueGroup.obj [(ascii "o", .opaque 2)] ∧
    vagueDT.ty = some (.compound [ascii "p"] [.array [2] (.num .u8)]) ∧ Legible castOK vagueDT ∧
    (vagueGroup.getVariableT castOK (srcOf []) [] (ascii "v")).2 =
      .ok ⟨.compound [ascii "p"] [.slice (.num .u8) [.num .u8 3, .num .u8 4]], [], []⟩ ∧
    ∀ ord, Iteration ord →
      (vagueGroup.getVariableT (vagueGroup.cast ord) (srcOf []) [] (ascii "v")).2 = .err .assertFail ∧
      vagueGroup.varType ord .go [] (ascii "v") = .err .assertFail := by
  refine ⟨⟨by decide +kernel, by decide +kernel, by decide +kernel, ?_, ?_⟩, by decide +kernel, ?_, by rfl, fun ord hord => ?_⟩
  · intro p hp
    cases List.mem_singleton.1 hp
    exact ⟨by rintro ds t ⟨⟩, trivial, tyIsName (by decide), by decide⟩
  · intro k hk
    simp only [vagueGroup, groupOf, rootGroup, Obj.kids, List.mem_cons, List.not_mem_nil, or_false] at hk
    rcases hk with rfl | rfl
    · intros; rfl
    · intro _ h; cases h
  · exact ⟨rfl, by decide, by simp, by simp [Steady], trivial, trivial⟩
  · have hd := describe_const (ord := ord) (types := vagueGroup.types) fun p =>
      (show vagueGroup.types = [(ascii "o", some (.opaque 2 false))] from rfl) ▸ iteration_one hord _ p
    have hc : vagueGroup.cast ord = vagueGroup.cast fun _ l => l := by
      funext t
      simp only [Group.cast, hd]
    have hv : vagueGroup.varType ord .go [] (ascii "v") = vagueGroup.varType (fun _ l => l) .go [] (ascii "v") := by
      simp only [Group.varType, Group.describe, hd]
    rw [hc, hv]
    exact ⟨by with_unfolding_all rfl, by with_unfolding_all rfl⟩

/-- C57 fails for declared types with attributes: `ListTypes` has them, `GetType` panics, and `GetGoType`
does not find them. -/
theorem C57_negation_attributes : ∃ G : Group, G.listTypes = [ascii "t"] ∧
    ∀ ord, G.getType ord (ascii "t") = .panic ∧ G.getGoType ord (ascii "t") = .ok none :=
  ⟨groupOf [.mk { name := ascii "t", dt := some (.opaque 4 false), attrs := [⟨ascii "a", [], byteDT, .df [1]⟩] } []],
    by decide +kernel, fun _ => ⟨rfl, rfl⟩⟩

theorem varType_const {G : Group} (ht : G.types = []) {ord : List Nat → List NamedType → List NamedType} (h : Iteration ord) :
    G.varType ord = G.varType fun _ l => l := by
  funext nt t n
  have := describe_const (ord := ord) (types := G.types) fun p => ht ▸ iteration_none h p
  unfold Group.varType
  cases G.findVariable n with
  | none => rfl
  | some o => simp only [Group.describe, this]

/-- A variable whose type has a member with dimensions. -/
def oldGroup : Group :=
  groupOf [.mk { name := ascii "v", dt := some (.compound 2 [(ascii "p", 0, some [2])] [byteDT]), dims := some [], blocks := [.raw [3, 4]] } []]

/-- C57 fails for the dimensions of members in the old encoding of compounds: they are not shown. -/
theorem C57_negation_member_dims : ∃ (G : Group) (v : TVal),
    (G.getVariableT castOK (srcOf []) [] (ascii "v")).2 = .ok ⟨v, [], []⟩ ∧
    v = .compound [ascii "p"] [.slice (.num .u8) [.num .u8 3, .num .u8 4]] ∧
    ∀ ord, Iteration ord → G.varType ord .cdl [] (ascii "v") = .ok (ascii "compound {\n\tubyte p;\n}") := by
  refine ⟨oldGroup, _, by rfl, rfl, fun ord h => ?_⟩
  rw [varType_const rfl h]
  rfl

/-- A variable whose type is an array. -/
def arrayGroup : Group :=
  groupOf [.mk { name := ascii "v", dt := some (.array 2 [2] byteDT), dims := some [2], blocks := [.raw [1, 2, 3, 4]] } []]

/-- C57 fails after reading for variables whose type is an array: the dimensions of the variable are then
shown with those of the type. -/
theorem C57_negation_read_array : ∃ (G : Group) (t : TTab),
    (G.getVariableT castOK (srcOf []) [] (ascii "v")).1 = t ∧ ∀ ord, Iteration ord →
    G.varType ord .cdl [] (ascii "v") = .ok (ascii "ubyte(2)") ∧ G.varType ord .cdl t (ascii "v") = .ok (ascii "ubyte(2,2)") := by
  refine ⟨arrayGroup, _, rfl, fun ord h => ?_⟩
  rw [varType_const rfl h]
  exact ⟨by with_unfolding_all rfl, by with_unfolding_all rfl⟩

/-- A variable with two attributes. -/
def attrVar : Obj :=
  .mk { name := ascii "v", dt := some byteDT, dims := some [], blocks := [.raw [3]],
        attrs := [⟨ascii "a", [], byteDT, .df [1]⟩, ⟨ascii "b", [], byteDT, .df [2]⟩] } []
/-- The attribute `b` of the root group is text, those of the variable are numbers. -/
def attrGroup : Group := rootGroup (.mk { isGroup := true, attrs := [⟨ascii "b", [], .str 1, .value (ascii "t")⟩] } [attrVar])

/-- C57 fails for attributes of variables: `GetType` panics, or shows the type of the attribute of the
root group with the same name. -/
theorem C57_negation_variable_attribute : ∃ v : TVariable,
    (attrGroup.getVariableT castOK (srcOf []) [] (ascii "v")).2 = .ok v ∧
    v.attrs = [(ascii "a", .num .u8 1), (ascii "b", .num .u8 2)] ∧ ∀ ord, Iteration ord →
    attrGroup.attrType ord .cdl v.attrs (ascii "a") = .panic ∧
    attrGroup.attrType ord .cdl v.attrs (ascii "b") = .ok (some (ascii "string")) := by
  refine ⟨⟨.num .u8 3, [], [(ascii "a", .num .u8 1), (ascii "b", .num .u8 2)]⟩, by rfl, rfl, fun ord h => ?_⟩
  have hd := describe_const (ord := ord) (types := attrGroup.types) fun p => (show attrGroup.types = [] from rfl) ▸ iteration_none h p
  have : attrGroup.attrType ord = attrGroup.attrType fun _ l => l := by
    funext nt m k
    simp only [Group.attrType, hd]
  rw [this]
  exact ⟨by rfl, by rfl⟩

end Verif.H5
