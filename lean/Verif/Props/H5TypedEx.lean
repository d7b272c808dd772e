import Verif.Props.H5Typed
/-!
C55: variables that meet the hypotheses, and what is not so.
-/
namespace Verif.H5

/-- The names of all types can be computed. -/
def castOK : DT → Res Unit := fun _ => .ok ()

/-- No decompression, and a file. -/
def srcOf (file : Bytes) : Src := ⟨noInflate, 0, file⟩

/-- A byte. -/
abbrev byteDT : DT := .fixed 1 false false

theorem shown_byte (heap : HeapFn) (x : UInt8) : Shown heap byteDT [] [x] (.num .u8 x.toNat) := by
  have h : numBytes false .u8 x.toNat = [x] := by
    simp [numBytes, leEnc, Kind.size]
  rw [← h]
  exact Shown.num false .u8 x.toNat (by have := x.toNat_lt; simpa [Kind.size] using this)

theorem shown_bytes (heap : HeapFn) (dims : List Nat) (f : List Nat → UInt8) :
    Shown heap byteDT dims (rowMajor dims fun idx => [f idx]) (tabulateT (.num .u8) dims fun idx => .num .u8 (f idx).toNat) :=
  .table (dt := byteDT) (.inl rfl) (by rintro ⟨⟩) fun idx _ => shown_byte heap (f idx)

/-- A line of bytes. -/
theorem shown_line (heap : HeapFn) (b : Bytes) :
    Shown heap byteDT [b.length] b (.slice (.num .u8) (b.map fun x => .num .u8 x.toNat)) := by
  have h := shown_bytes heap [b.length] fun idx => b[idx.headD 0]?.getD 0
  have e1 : (rowMajor [b.length] fun idx => [b[idx.headD 0]?.getD 0]) = b := by
    rw [rowMajor_cons]
    simp only [rowMajor, indices, List.flatMap_cons, List.flatMap_nil, List.append_nil, List.headD_cons]
    rw [← List.map_eq_flatMap]
    apply List.ext_getElem
    · simp
    · intro i h1 h2
      simp at h1
      simp [h1]
  have e2 : (tabulateT (.num .u8) [b.length] fun idx => .num .u8 (b[idx.headD 0]?.getD 0).toNat) =
      .slice (.num .u8) (b.map fun x => .num .u8 x.toNat) := by
    simp only [tabulateT, sliceTy, List.headD_cons]
    congr 1
    apply List.ext_getElem
    · simp
    · intro i h1 h2
      simp at h1
      simp [h1]
  rwa [e1, e2] at h

/-! ### A nested type -/

/-- A compound of six bytes: a number, a pair of bytes and a colour, with a byte unused. -/
abbrev cellDT : DT := .compound 6 [(ascii "n", 0, none), (ascii "p", 2, none), (ascii "c", 5, none)]
  [.fixed 2 false true, .array 2 [2] byteDT, .enum 1 byteDT [ascii "red", ascii "blue"] [1, 2]]

/-- The value of a cell. -/
def cellVal (n : Nat) (x y c : UInt8) : TVal :=
  .compound [ascii "n", ascii "p", ascii "c"]
    [.num .u16 n, .slice (.num .u8) [.num .u8 x.toNat, .num .u8 y.toNat],
      .enum (.num .u8 c.toNat) [ascii "red", ascii "blue"] [.num .u8 1, .num .u8 2]]

theorem shown_cell (heap : HeapFn) (h l x y z c : UInt8) :
    Shown heap cellDT [] [h, l, x, y, z, c] (cellVal (h.toNat * 256 + l.toNat) x y c) := by
  refine .compound (b := [h, l, x, y, z, c]) _ _ _ rfl rfl ?_ ?_
  · intro i m t hm ht
    match i with
    | 0 | 1 | 2 => cases hm; cases ht; show _ ≤ 6; decide
    | n + 3 => simp at hm
  · intro i m t v hm ht hv
    match i with
    | 0 =>
      cases hm; cases ht; cases hv
      have e : numBytes true .u16 (h.toNat * 256 + l.toNat) = [h, l] := by
        have := l.toNat_lt
        have h1 : (h.toNat * 256 + l.toNat) / 256 = h.toNat := by omega
        have h2 : UInt8.ofNat ((h.toNat * 256 + l.toNat) % 256) = l := by
          rw [show (h.toNat * 256 + l.toNat) % 256 = l.toNat by omega, UInt8.ofNat_toNat]
        simp [numBytes, beEnc, leEnc, Kind.size, h1, h2]
      have := Shown.num (heap := heap) true .u16 (h.toNat * 256 + l.toNat) (by
        have := l.toNat_lt
        have := h.toNat_lt
        simp only [Kind.size]
        omega)
      rw [e] at this
      exact this
    | 1 =>
      cases hm; cases ht; cases hv
      exact .array 2 [2] byteDT [] _ _ rfl (by decide) (shown_line heap [x, y])
    | 2 =>
      cases hm; cases ht; cases hv
      exact .enum false .u8 _ [1, 2] [] _ _ rfl (shown_byte heap c)
    | n + 3 => simp at hm

theorem legible_cell : Legible castOK cellDT := by
  refine ⟨rfl, by decide, by decide, ?_, trivial, trivial, trivial, trivial⟩
  intro x hx
  simp only [List.zip_cons_cons, List.zip_nil_right, List.mem_cons, List.not_mem_nil, or_false] at hx
  rcases hx with rfl | rfl | rfl
  · trivial
  · exact ⟨rfl, trivial⟩
  · trivial

/-- Two cells in a file of 14 bytes. -/
def cellFile : Bytes := [9, 9, 1, 2, 3, 4, 0, 1, 0, 7, 5, 6, 0, 2]
def cellObj : Obj := .mk { dims := some [2], dt := some cellDT, blocks := [.at 2 12] } []
def cellBytes : List Nat → Bytes
  | [0] => [1, 2, 3, 4, 0, 1]
  | _ => [0, 7, 5, 6, 0, 2]
def cellVals : List Nat → TVal
  | [0] => cellVal 0x102 3 4 1
  | _ => cellVal 7 5 6 2

theorem cellFlat : FlatVar cellFile cellObj.info cellDT [2] cellBytes [0] :=
  ⟨rfl, rfl, rfl, by decide, by decide, by decide, by decide, fun idx => by unfold cellBytes; split <;> rfl,
    .zero _ rfl rfl (by simp), by decide, .inl ⟨2, rfl, by unfold At; decide +kernel⟩⟩

theorem cellShown (heap : HeapFn) (idx : List Nat) : Shown heap cellDT [] (cellBytes idx) (cellVals idx) := by
  unfold cellBytes cellVals
  split
  · exact shown_cell heap 1 2 3 4 0 1
  · exact shown_cell heap 0 7 5 6 0 2

/-- A variable with two cells. -/
example : objDataT castOK (srcOf cellFile) cellObj (TSt.fresh cellObj) =
    .ok (.slice .compound [cellVal 0x102 3 4 1, cellVal 7 5 6 2], TSt.fresh cellObj) :=
  C55_elements_partial (s := srcOf cellFile) cellFlat rfl rfl trivial (by rintro ⟨⟩) cellVals (fun idx _ => cellShown _ idx)
    legible_cell

/-- Its second cell, after the first was read. -/
example : (cellObj.getSliceT castOK (srcOf cellFile) (cellObj.getSliceT castOK (srcOf cellFile) [] 0 1).1 1 2).2 =
    .ok (.slice .compound [cellVal 7 5 6 2]) :=
  C55_slices_partial (s := srcOf cellFile) cellFlat rfl rfl rfl
    (Shown.table (dt := cellDT) trivial (by rintro ⟨⟩) (val := cellVals) fun idx _ => cellShown _ idx) legible_cell (fun _ => trivial)
    [(0, 1)] (by simp [IsSeq]) [] ⟨rfl, rfl⟩ 1 2 (by decide) (by decide) (by rintro ⟨⟩)

/-- An attribute with one cell is that cell. -/
example : ∃ w, parseAttrT castOK noHeap {} ⟨ascii "a", [1], cellDT, .df [1, 2, 3, 4, 0, 1]⟩ = .ok w ∧
    shownAttr castOK noHeap ⟨ascii "a", [1], cellDT, .df [1, 2, 3, 4, 0, 1]⟩ w = .ok (cellVal 0x102 3 4 1) := by
  refine C55_attribute_partial (v := .slice .compound [cellVal 0x102 3 4 1]) ?_ legible_cell (pat := [0]) (by decide +kernel) (by simp)
  exact .data [1, 2, 3, 4, 0, 1] [] rfl (by decide)
    (Shown.table (dt := cellDT) (dims := [1]) (cell := fun _ => [1, 2, 3, 4, 0, 1]) (val := fun _ => cellVal 0x102 3 4 1) trivial
      (by rintro ⟨⟩) fun _ _ => shown_cell _ 1 2 3 4 0 1)

/-! ### Chunks -/

/-- Opaque blobs of one byte, 3×2, with one chunk per row, one of which is missing. -/
def blobObj : Obj := .mk { rowInfo with dims := some [3, 2], dt := some (.opaque 1 false) } []
def blobSrc : Src := ⟨noInflate, 2, rowFile⟩
def blobVals (idx : List Nat) : TVal := .opaque (rowCell idx)

theorem blobVar : StoredVar noInflate rowFile blobObj.info (.opaque 1 false) [3, 2] rowCell [9] rowIndexTree 8 :=
  ⟨rowVar.geo, rowVar.small, rowVar.rank, rowVar.chunk, rowVar.addr0, rowVar.stored, rowVar.sorted, rowVar.aligned, rowVar.keys,
    rowVar.distinct, rowVar.cells, .given _ _ rfl (by simp), rowVar.patLen, rowVar.holds, rowVar.missing⟩

theorem blobShown (heap : HeapFn) : Shown heap (.opaque 1 false) [3, 2] (rowMajor [3, 2] rowCell)
    (tabulateT .opaque [3, 2] blobVals) :=
  .table (dt := .opaque 1 false) trivial (by rintro ⟨⟩) fun idx _ => by
    have h := Shown.blob (heap := heap) false (rowCell idx)
    rwa [rowVar.cells] at h

example : ∃ st, objDataT castOK blobSrc blobObj (TSt.fresh blobObj) =
    .ok (.slice (.slice .opaque) [.slice .opaque [.opaque [1], .opaque [2]], .slice .opaque [.opaque [9], .opaque [9]],
      .slice .opaque [.opaque [5], .opaque [6]]], st) := by
  obtain ⟨st, h, -⟩ := C55_chunked_partial (cast := castOK) (s := blobSrc) blobVar (by decide) (by simp [StripesInOrder, Covered, blobObj, Obj.info, rowInfo])
    rfl rfl rfl (blobShown _) rfl
  exact ⟨st, h⟩

/-- Its last two rows, after the first was read. -/
example : (blobObj.getSliceT castOK blobSrc (blobObj.getSliceT castOK blobSrc [] 0 1).1 1 3).2 =
    .ok (.slice (.slice .opaque) [.slice .opaque [.opaque [9], .opaque [9]], .slice .opaque [.opaque [5], .opaque [6]]]) :=
  C55_chunked_slices_partial (cast := castOK) (s := blobSrc) blobVar (by decide) (by decide +kernel) rfl rfl rfl rfl (blobShown _)
    rfl (fun _ => trivial) [(0, 1)] (by simp [IsSeq]) [] ⟨rfl, rfl⟩ 1 3 (by decide) (by decide) (by rintro ⟨⟩)

/-! ### What fails -/

/-- C55 fails for reading again: a variable with two elements, each an array of two bytes, can be
read once, but not twice. -/
theorem C55_negation_again : ∃ (s : Src) (o : Obj) (dt : DT) (dims : List Nat) (cell : List Nat → Bytes) (v : TVal) (st : TSt),
    FlatVar s.file o.info dt dims cell [0] ∧ o.info.dt = some dt ∧ o.info.dims = some dims ∧
    Shown (heapLookup s.file) dt dims (rowMajor dims cell) v ∧ Legible castOK dt ∧
    objDataT castOK s o (TSt.fresh o) = .ok (v, st) ∧ ∃ e, objDataT castOK s o st = .err e :=
  ⟨srcOf [], .mk { dims := some [2], dt := some (.array 2 [2] byteDT), blocks := [.raw [1, 2, 3, 4]] } [],
    .array 2 [2] byteDT, [2], fun idx => if idx = [0] then [1, 2] else [3, 4],
    .slice (.slice (.num .u8)) [.slice (.num .u8) [.num .u8 1, .num .u8 2], .slice (.num .u8) [.num .u8 3, .num .u8 4]],
    ⟨none, [⟨.raw [1, 2, 3, 4], 4, 0, []⟩], some (.array 2 [2, 2] byteDT)⟩,
    ⟨rfl, rfl, rfl, by decide, by decide, by decide, by decide, fun idx => by split <;> rfl, .zero _ rfl rfl (by simp),
      by decide, .inr (.inl rfl)⟩, rfl, rfl,
    .array _ _ _ _ _ _ rfl (by decide)
      (shown_bytes _ [2, 2] fun idx => if idx = [0, 0] then 1 else if idx = [0, 1] then 2 else if idx = [1, 0] then 3 else 4),
    trivial, rfl, _, rfl⟩

/-- C55 fails for members that are not listed in the order of their offsets: `b` at offset 1, `a` at
offset 0, and a byte unused. The unused byte is returned for `a`. -/
theorem C55_negation_order : ∃ (dt : DT) (b : Bytes) (v w : TVal) (rest : S), Shown noHeap dt [] b v ∧
    allocTy castOK noHeap dt [] ⟨0, b⟩ = .ok ((w, dt), rest) ∧ w ≠ v :=
  ⟨.compound 3 [(ascii "b", 1, none), (ascii "a", 0, none)] [byteDT, byteDT], [7, 8, 9],
    .compound [ascii "b", ascii "a"] [.num .u8 8, .num .u8 7], .compound [ascii "b", ascii "a"] [.num .u8 8, .num .u8 9],
    ⟨3, []⟩, by
      refine .compound (b := [7, 8, 9]) _ _ _ rfl rfl ?_ ?_
      · intro i m t hm ht
        match i with
        | 0 | 1 => cases hm; cases ht; decide
        | n + 2 => simp at hm
      · intro i m t v hm ht hv
        match i with
        | 0 => cases hm; cases ht; cases hv; exact shown_byte _ 8
        | 1 => cases hm; cases ht; cases hv; exact shown_byte _ 7
        | n + 2 => simp at hm, rfl, by simp⟩

/-- C55 fails for empty sequences of compounds and of opaque blobs: the value is not of the type that
sequences with elements have. -/
theorem C55_negation_empty : ∃ (dt : DT) (full empty : Bytes) (v w : TVal) (rest rest' : S) (heap : HeapFn),
    Shown heap dt [] full v ∧ empty.take 4 = [0, 0, 0, 0] ∧ allocTy castOK heap dt [] ⟨0, full⟩ = .ok ((v, dt), rest) ∧
    allocTy castOK heap dt [] ⟨0, empty⟩ = .ok ((w, dt), rest') ∧ v.ty = .slice .opaque ∧ w.ty = .slice (.num .u8) :=
  ⟨.vlen 16 false (.opaque 2 false), leEnc 4 1 ++ (leEnc 8 64 ++ leEnc 4 1), List.replicate 16 0,
    .slice .opaque [.opaque [1, 2]], .slice (.num .u8) [], ⟨16, []⟩, ⟨16, []⟩, fun _ _ => .ok (some [1, 2]),
    .seq (.opaque 2 false) 64 1 1 (fun _ => [1, 2]) (fun _ => .opaque [1, 2]) [] (by decide) (by decide) (by decide) (by decide) rfl
      (fun _ _ => .blob false [1, 2]), rfl, rfl, rfl, rfl, rfl⟩

/-- C55 fails for attributes that are compounds with one member: the member is shown. -/
theorem C55_negation_member : ∃ (a : Attr) (v w : TVal), AttrShown noHeap a v ∧ Legible castOK a.dt ∧
    parseAttrT castOK noHeap {} a = .ok w ∧ shownAttr castOK noHeap a w ≠ .ok (oneOut v) ∧
    shownAttr castOK noHeap a w = .ok (.field (ascii "x") (.num .u8 5)) := by
  refine ⟨⟨ascii "a", [], .compound 1 [(ascii "x", 0, none)] [byteDT], .df [5]⟩, .compound [ascii "x"] [.num .u8 5],
    .compound [ascii "x"] [.num .u8 5], .data [5] [] rfl (by decide) ?_, ⟨rfl, by decide, by simp, by simp [Steady], trivial, trivial⟩,
    rfl, ?_, rfl⟩
  · refine .compound (b := [5]) _ _ _ rfl rfl ?_ ?_
    · intro i m t hm ht
      match i with
      | 0 => cases hm; cases ht; decide
      | n + 1 => simp at hm
    · intro i m t v hm ht hv
      match i with
      | 0 => cases hm; cases ht; cases hv; exact shown_byte _ 5
      | n + 1 => simp at hm
  · intro h
    have : (Res.ok (TVal.field (ascii "x") (.num .u8 5))) = .ok (TVal.compound [ascii "x"] [.num .u8 5]) := h
    cases this

/-- C55 fails for attributes of an opaque type without a tag: the bytes `1, 2` of the attribute are not kept when
the message is read, and zeros are shown. -/
theorem C55_negation_untagged : ∃ (b : Bytes) (dt : DT) (d : AttrData) (v w : TVal), Shown noHeap dt [] b v ∧ Legible castOK dt ∧
    attrData b dt = .ok d ∧ parseAttrT castOK noHeap {} ⟨ascii "a", [], dt, d⟩ = .ok w ∧
    shownAttr castOK noHeap ⟨ascii "a", [], dt, d⟩ w = .ok (.opaque [0, 0]) ∧ v = .opaque [1, 2] :=
  ⟨[1, 2], .opaque 2 false, .none, .opaque [1, 2], .nil, .blob false [1, 2], rfl, rfl, rfl, rfl, rfl⟩

/-- C55 fails for attributes that are arrays of strings of a fixed length: only the first one is shown. -/
theorem C55_negation_strings : ∃ (b : Bytes) (dt : DT) (d : AttrData) (v w : TVal), Shown noHeap dt [2] b v ∧ Legible castOK dt ∧
    attrData b dt = .ok d ∧ parseAttrT castOK noHeap {} ⟨ascii "a", [2], dt, d⟩ = .ok w ∧
    shownAttr castOK noHeap ⟨ascii "a", [2], dt, d⟩ w = .ok (.str (ascii "A")) ∧
    v = .slice .str [.str (ascii "A"), .str (ascii "B")] :=
  ⟨[65, 0, 66, 0], .str 2, .value (ascii "A"), _, .str (ascii "A"),
    .rows (.str 2) 2 [] (fun i => if i = 0 then [65, 0] else [66, 0]) (fun i => if i = 0 then .str (ascii "A") else .str (ascii "B"))
      (by simp [ByElement]) (by rintro ⟨n, e, h⟩; cases h) (fun i hi => by
        match i with
        | 0 => exact .str 2 (ascii "A") (by decide) (by decide)
        | 1 => exact .str 2 (ascii "B") (by decide) (by decide)), trivial, rfl, rfl, rfl, rfl⟩

end Verif.H5
