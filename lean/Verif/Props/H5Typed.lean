import Verif.Lemmas.H5TypedSlice
import Verif.Props.H5DataEx
/-!
C55: values of compound, enumeration, opaque, reference, array and sequence types. `Spec/H5Typed` says
what the bytes mean (`Shown`).
-/
namespace Verif.H5

variable {cast : DT → Res Unit} {s : Src} {o : Obj} {dt : DT} {dims : List Nat} {cell : List Nat → Bytes} {pat : Bytes}
  {v : TVal} {t : Index} {addr : Nat}

/-! ### Whole variables -/

/-- C55: the values of a variable of any type that is stored in one piece are those its bytes stand
for, and for types that are not arrays, or scalar variables of them, reading leaves the variable as it is, so
that each later read gives the same. Missing: sequences that are empty and have no simple elements
(`C55_negation_empty`), members that are not in the order of their offsets (`C55_negation_order`), and
reading again (`C55_negation_again`). -/
theorem C55_flat_partial (h : FlatVar s.file o.info dt dims cell pat) (hdt : o.info.dt = some dt)
    (hd : o.info.dims.getD [] = dims) (hs : Shown (heapLookup s.file) dt dims (rowMajor dims cell) v)
    (hl : Legible cast dt) :
    ∃ st, objDataT cast s o (TSt.fresh o) = .ok (v, st) ∧ v.ty = goTy dt dims ∧
      (Steady dt dims → st = TSt.fresh o) := by
  have := getDataT_of (sl := none) h.all hs hl
  refine ⟨⟨none, o.info.blocks.map Block.toD, some (typeAfter dt (sliceDims dims none))⟩, ?_, hs.ty, ?_⟩
  · simp only [objDataT, TSt.fresh, hdt, hd, this]
  · intro hst
    simp only [TSt.fresh, hdt]
    rw [show sliceDims dims none = dims by cases dims <;> rfl, steady_after hst]

/-- C55, variables in chunks; see C29 for the chunk shapes. -/
theorem C55_chunked_partial (h : StoredVar s.inflate s.file o.info dt dims cell pat t addr) (hfuel : t.depth ≤ s.fuel)
    (ho : StripesInOrder dims o.info.layout) (hdt : o.info.dt = some dt) (hd : o.info.dims.getD [] = dims)
    (hb : o.info.blocks = []) (hs : Shown (heapLookup s.file) dt dims (rowMajor dims cell) v) (hl : Legible cast dt) :
    ∃ st, objDataT cast s o (TSt.fresh o) = .ok (v, st) ∧ v.ty = goTy dt dims ∧
      (Steady dt dims → st.dt = some dt ∧ st.sl = none) := by
  obtain ⟨rest, blocks, h1, -⟩ := h.whole hfuel ho
  have := getDataT_of (sl := none) h1 hs hl
  refine ⟨⟨none, blocks, some (typeAfter dt (sliceDims dims none))⟩, ?_, hs.ty, ?_⟩
  · simp only [objDataT, TSt.fresh, hdt, hd, hb, List.map_nil, this]
  · intro hst
    simp only
    rw [show sliceDims dims none = dims by cases dims <;> rfl, steady_after hst]
    exact ⟨rfl, trivial⟩

/-- C55: element by element. Arrays of compounds, opaque blobs, references, strings and sequences are
slices of the values of their elements. -/
theorem C55_elements_partial (h : FlatVar s.file o.info dt dims cell pat) (hdt : o.info.dt = some dt)
    (hd : o.info.dims.getD [] = dims) (hb : ByElement dt) (hz : IsSeq dt → ∀ d ∈ dims, 0 < d) (val : List Nat → TVal)
    (hs : ∀ idx, InRange dims idx → Shown (heapLookup s.file) dt [] (cell idx) (val idx)) (hl : Legible cast dt) :
    objDataT cast s o (TSt.fresh o) = .ok (tabulateT (goTy dt []) dims val, TSt.fresh o) := by
  obtain ⟨st, h1, -, h2⟩ := C55_flat_partial h hdt hd (.table hb hz hs) hl
  rw [h1, h2]
  cases dt <;> first | exact hb.elim | trivial

/-! ### Slices -/

/-- The state of a variable whose type and blocks are as in the file. -/
def Untouched (t : TTab) (o : Obj) : Prop :=
  (t.of o).cached = o.info.blocks.map Block.toD ∧ (t.of o).dt = o.info.dt

/-- C55: `GetSlice(b, e)` returns the rows from `b` to `e` of the values of the whole variable, also
after other slices of it were read. -/
theorem C55_slice_partial (h : FlatVar s.file o.info dt dims cell pat) (hdt : o.info.dt = some dt) {d : Nat} {ds : List Nat}
    (hd : o.info.dims = some (d :: ds)) (hdims : dims = d :: ds)
    (hs : Shown (heapLookup s.file) dt dims (rowMajor dims cell) v)
    (hl : Legible cast dt) (hst : ∀ x, Steady dt (x :: ds)) (tab : TTab) (hu : Untouched tab o) (b e : Nat) (h1 : b ≤ e) (h2 : e ≤ d)
    (hz : IsSeq dt → b < e) :
    ∃ tab', o.getSliceT cast s tab b e = (tab', .ok (sliceV b e v)) ∧ Untouched tab' o := by
  subst hdims
  have hlt := h.dlt d List.mem_cons_self
  have hsl := hs.slice rfl h1 h2 hz
  have hsd : sliceDims (d :: ds) (some ((b : Int), (e : Int))) = (e - b) :: ds := sliceDims_rows h1 (by omega)
  have := getDataT_of (sl := some ((b : Int), (e : Int))) (h.part rfl h1 h2) (by rw [hsd]; exact hsl) hl
  rw [hsd, steady_after (hst _)] at this
  have hn := hsl.not_nil
  refine ⟨tab.put o ⟨some (b, e), o.info.blocks.map Block.toD, some dt⟩, ?_, ?_⟩
  · unfold Obj.getSliceT
    rw [if_neg (by rw [hd]; simp), if_neg (by omega)]
    simp only [objDataT, hu.2, hdt, hd, Option.getD_some, hu.1, this]
  · simp [Untouched, TTab.of, TTab.put, hdt]

/-- C55: a sequence of slices. -/
theorem C55_slices_partial (h : FlatVar s.file o.info dt dims cell pat) (hdt : o.info.dt = some dt) {d : Nat} {ds : List Nat}
    (hd : o.info.dims = some (d :: ds)) (hdims : dims = d :: ds)
    (hs : Shown (heapLookup s.file) dt dims (rowMajor dims cell) v)
    (hl : Legible cast dt) (hst : ∀ x, Steady dt (x :: ds)) :
    ∀ (calls : List (Nat × Nat)), (∀ c ∈ calls, c.1 ≤ c.2 ∧ c.2 ≤ d ∧ (IsSeq dt → c.1 < c.2)) → ∀ tab, Untouched tab o →
      ∀ b e : Nat, b ≤ e → e ≤ d → (IsSeq dt → b < e) →
        (o.getSliceT cast s (calls.foldl (fun tab c => (o.getSliceT cast s tab c.1 c.2).1) tab) b e).2 =
          .ok (sliceV b e v) := by
  intro calls
  induction calls with
  | nil =>
    intro _ tab hu b e h1 h2 hz
    obtain ⟨tab', h3, -⟩ := C55_slice_partial h hdt hd hdims hs hl hst tab hu b e h1 h2 hz
    rw [List.foldl_nil, h3]
  | cons c cs ih =>
    intro hc tab hu b e h1 h2 hz
    obtain ⟨c1, c2, c3⟩ := hc c List.mem_cons_self
    obtain ⟨tab', h3, h4⟩ := C55_slice_partial h hdt hd hdims hs hl hst tab hu c.1 c.2 c1 c2 c3
    rw [List.foldl_cons, h3]
    exact ih (fun c' h' => hc c' (List.mem_cons_of_mem _ h')) tab' h4 b e h1 h2 hz

/-- C55: the rows of a variable in chunks that are runs of elements, also after other slices of it were
read; see C44. -/
theorem C55_chunked_slice_partial (h : StoredVar s.inflate s.file o.info dt dims cell pat t addr) (hfuel : t.depth ≤ s.fuel)
    (hlay : needsLayoutReader dims o.info.layout = .ok false) (hdt : o.info.dt = some dt) {d : Nat} {ds : List Nat}
    (hd : o.info.dims = some (d :: ds)) (hdims : dims = d :: ds) (hb : o.info.blocks = [])
    (hs : Shown (heapLookup s.file) dt dims (rowMajor dims cell) v) (hl : Legible cast dt) (hst : ∀ x, Steady dt (x :: ds))
    (tab : TTab) (hu : Untouched tab o) (b e : Nat) (h1 : b ≤ e) (h2 : e ≤ d) (hz : IsSeq dt → b < e) :
    ∃ tab', o.getSliceT cast s tab b e = (tab', .ok (sliceV b e v)) ∧ Untouched tab' o := by
  subst hdims
  obtain ⟨blocks, hr⟩ := h.rows hfuel hlay rfl (.inl rfl) h1 h2
  have hlt : d < 2 ^ 63 := Nat.lt_of_lt_of_le (h.geo.dlt d List.mem_cons_self) (by decide)
  have hsl := hs.slice rfl h1 h2 hz
  have hsd : sliceDims (d :: ds) (some ((b : Int), (e : Int))) = (e - b) :: ds := sliceDims_rows h1 (by omega)
  rw [rowMajor_slice h.cells h1 h2] at hsl
  rw [← List.append_nil (rowMajor _ _)] at hr
  have := getDataT_of (cast := cast) hr (by rw [hsd]; exact hsl) hl
  rw [hsd, steady_after (hst _)] at this
  have hn := hsl.not_nil
  have hu1 : (tab.of o).cached = [] := by rw [hu.1, hb, List.map_nil]
  refine ⟨tab.put o ⟨some (b, e), [], some dt⟩, ?_, ?_⟩
  · unfold Obj.getSliceT
    rw [if_neg (by rw [hd]; simp), if_neg (by omega)]
    simp only [objDataT, hu.2, hdt, hd, Option.getD_some, hu1, this]
  · simp [Untouched, TTab.of, TTab.put, hdt, hb]

/-- C55: a sequence of slices of a variable in chunks. -/
theorem C55_chunked_slices_partial (h : StoredVar s.inflate s.file o.info dt dims cell pat t addr) (hfuel : t.depth ≤ s.fuel)
    (hlay : needsLayoutReader dims o.info.layout = .ok false) (hdt : o.info.dt = some dt) {d : Nat} {ds : List Nat}
    (hd : o.info.dims = some (d :: ds)) (hdims : dims = d :: ds) (hb : o.info.blocks = [])
    (hs : Shown (heapLookup s.file) dt dims (rowMajor dims cell) v) (hl : Legible cast dt) (hst : ∀ x, Steady dt (x :: ds)) :
    ∀ (calls : List (Nat × Nat)), (∀ c ∈ calls, c.1 ≤ c.2 ∧ c.2 ≤ d ∧ (IsSeq dt → c.1 < c.2)) → ∀ tab, Untouched tab o →
      ∀ b e : Nat, b ≤ e → e ≤ d → (IsSeq dt → b < e) →
        (o.getSliceT cast s (calls.foldl (fun tab c => (o.getSliceT cast s tab c.1 c.2).1) tab) b e).2 =
          .ok (sliceV b e v) := by
  intro calls
  induction calls with
  | nil =>
    intro _ tab hu b e h1 h2 hz
    obtain ⟨tab', h3, -⟩ := C55_chunked_slice_partial h hfuel hlay hdt hd hdims hb hs hl hst tab hu b e h1 h2 hz
    rw [List.foldl_nil, h3]
  | cons c cs ih =>
    intro hc tab hu b e h1 h2 hz
    obtain ⟨c1, c2, c3⟩ := hc c List.mem_cons_self
    obtain ⟨tab', h3, h4⟩ := C55_chunked_slice_partial h hfuel hlay hdt hd hdims hb hs hl hst tab hu c.1 c.2 c1 c2 c3
    rw [List.foldl_cons, h3]
    exact ih (fun c' h' => hc c' (List.mem_cons_of_mem _ h')) tab' h4 b e h1 h2 hz

/-! ### Attributes -/

/-- C55: an attribute of any type is shown with the value its bytes stand for, where an array of one
element is that element. Missing: compounds with one member (`C55_negation_member`). -/
theorem C55_attribute_partial {heap : HeapFn} {a : Attr} (h : AttrShown heap a v) (hl : Legible cast a.dt) {i : Info}
    {pat : Bytes} (hf : attrFill i = .ok pat) (h1 : ∀ n x, v ≠ .compound [n] [x]) :
    ∃ w, parseAttrT cast heap i a = .ok w ∧ shownAttr cast heap a w = .ok (oneOut v) :=
  ⟨_, h.parse hl hf, h.shown hl h1⟩

end Verif.H5
