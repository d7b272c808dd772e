import Verif.Props.H5Rows
import Verif.Model.H5TypedBox
import Verif.Spec.H5Box
/-!
C74: `GetSliceMD` returns boxes of what `GetVariable` returns, for any HDF5 file that opens.
-/
namespace Verif.H5
open Sane Fmt

theorem sliceTy_length (t : TTy) : ∀ {a b : List Nat}, a.length = b.length → sliceTy t a = sliceTy t b
  | [], [], _ => rfl
  | _ :: a, _ :: b, h => by
    simp only [sliceTy]
    rw [sliceTy_length t (Nat.succ.inj h)]

theorem goTy_length : ∀ (dt : DT) {a b : List Nat}, (∀ n, dt = .str n → n ≠ 1) → ByElement dt → a.length = b.length →
    goTy dt a = goTy dt b := by
  intro dt a b hs hb h
  cases dt with
  | str n => simp only [goTy, if_neg (hs n rfl)]; exact sliceTy_length _ h
  | vlen n s e => cases s <;> exact sliceTy_length _ h
  | array => exact hb.elim
  | «enum» => exact hb.elim
  | time => exact hb.elim
  | fixed => exact sliceTy_length _ h
  | float => exact sliceTy_length _ h
  | «opaque» => exact sliceTy_length _ h
  | compound => exact sliceTy_length _ h
  | ref => exact sliceTy_length _ h

theorem Declared.array_inv {n : Nat} {ad : List Nat} {e : DT} {dims : List Nat} {v : TVal}
    (h : Declared true (.array n ad e) dims v) : Declared true e (dims ++ ad) v := by
  generalize hdt : DT.array n ad e = dt at h
  cases h with
  | array => cases hdt; assumption
  | rows _ _ _ _ _ _ hb =>
    subst hdt
    rcases hb with hb | ⟨hb, -⟩
    · exact hb.elim
    · cases hb
  | num _ be k => exfalso; revert hdt; cases k <;> simp [storedNum]
  | _ => cases hdt

/-- An array with a dimension is a slice of its rows, and other rows can take their places. -/
theorem Declared.row : ∀ (dt : DT), Rowwise dt → ¬ IsEnum dt → ∀ {d : Nat} {ds : List Nat} {v : TVal},
    Declared true dt (d :: ds) v → ∃ t xs, v = .slice t xs ∧ xs.length = d ∧ (∀ y ∈ xs, Declared true dt ds y) ∧
      ∀ (ys : List TVal) (ds' : List Nat), ds'.length = ds.length → (∀ y ∈ ys, Declared true dt ds' y) →
        Declared true dt (ys.length :: ds') (.slice t ys)
  | .array n ad e, hw, he, d, ds, v, h => by
    have h' := h.array_inv
    obtain ⟨t, xs, h1, h2, h3, h4⟩ := Declared.row e hw.2 he (ds := ds ++ ad) h'
    refine ⟨t, xs, h1, h2, fun y hy => .array _ _ _ _ _ _ (h3 y hy), fun ys ds' hl hy => .array _ _ _ _ _ _ ?_⟩
    refine h4 ys (ds' ++ ad) (by simp [hl]) fun y hm => (hy y hm).array_inv
  | .time _, hw, _, _, _, _, _ => hw.elim
  | .enum _ _ _ _, _, he, _, _, _, _ => (he trivial).elim
  | .fixed _ _ _, hw, _, _, _, _, h => flat (by simp) (by simp) (by simp) (by simp) h
  | .float _ _, hw, _, _, _, _, h => flat (by simp) (by simp) (by simp) (by simp) h
  | .str n, hw, _, _, _, _, h => flat (fun m e => by cases e; exact hw) (by simp) (by simp) (by simp) h
  | .opaque _ _, hw, _, _, _, _, h => flat (by simp) (by simp) (by simp) (by simp) h
  | .compound _ _ _, hw, _, _, _, _, h => flat (by simp) (by simp) (by simp) (by simp) h
  | .ref _, hw, _, _, _, _, h => flat (by simp) (by simp) (by simp) (by simp) h
  | .vlen _ true _, hw, _, _, _, _, h => flat (by simp) (by simp) (by simp) (by simp) h
  | .vlen _ false _, hw, _, _, _, _, h => flat (by simp) (by simp) (by simp) (by simp) h
where
  flat {dt : DT} (hs : ∀ n, dt = .str n → n ≠ 1) (ha : ∀ n ad e, dt ≠ .array n ad e) (ht : ∀ n, dt ≠ .time n)
      (he : ∀ n b ns vs, dt ≠ .enum n b ns vs)
      {d : Nat} {ds : List Nat} {v : TVal} (h : Declared true dt (d :: ds) v) :
      ∃ t xs, v = .slice t xs ∧ xs.length = d ∧ (∀ y ∈ xs, Declared true dt ds y) ∧
        ∀ (ys : List TVal) (ds' : List Nat), ds'.length = ds.length → (∀ y ∈ ys, Declared true dt ds' y) →
          Declared true dt (ys.length :: ds') (.slice t ys) := by
    generalize hD : d :: ds = D at h
    cases h with
    | rows _ _ d' ds0 t xs hb hl hy hty =>
      cases hD
      have hb' : ByElement dt := by
        rcases hb with hb | ⟨rfl, -⟩
        · exact hb
        · exact (hs 1 rfl rfl).elim
      refine ⟨t, xs, rfl, hl, hy, fun ys ds' hl' hy' => .rows _ _ _ _ _ _ (.inl hb') rfl hy' fun _ _ hns => ?_⟩
      rw [hty rfl hb' hns]
      exact goTy_length dt hs hb' hl'.symm
    | time _ n => exact (ht n rfl).elim
    | chars => exact (hs 1 rfl rfl).elim
    | «enum» _ be k len ns vs => exact (he _ _ _ _ rfl).elim
    | array _ n ad e => exact (ha _ _ _ rfl).elim
    | _ => cases hD

theorem resAll_map {α : Type} {f : TVal → Res α} {P : TVal → α → Prop} : ∀ {ys : List TVal},
    (∀ y ∈ ys, ∃ w, f y = .ok w ∧ P y w) → ∃ ws, resAll (ys.map f) = .ok ws ∧ ws.length = ys.length ∧
      ∀ (i : Nat) (y : TVal) (w : α), ys[i]? = some y → ws[i]? = some w → P y w
  | [], _ => ⟨[], rfl, rfl, by simp⟩
  | y :: ys, h => by
    obtain ⟨w, h1, h2⟩ := h y List.mem_cons_self
    obtain ⟨ws, h3, h4, h5⟩ := resAll_map (ys := ys) fun z hz => h z (List.mem_cons_of_mem _ hz)
    refine ⟨w :: ws, by simp [resAll, h1, h3], by simp [h4], ?_⟩
    intro i
    cases i with
    | zero =>
      intro y' w' e1 e2
      cases e1; cases e2
      exact h2
    | succ i => exact h5 i

/-- What `sliceRecursive` cuts out of an array. -/
theorem sliceRecT_box (dt : DT) (hw : Rowwise dt) (he : ¬ IsEnum dt) : ∀ (rs : List (Nat × Nat)) (dims : List Nat) (v : TVal),
    InBox rs dims → Declared true dt dims v → ∃ w, sliceRecT (rs.map fun r => ((r.1 : Int), (r.2 : Int))) v = .ok w ∧
      Declared true dt (rs.map fun r => r.2 - r.1) w ∧ ∀ idx, InsideBox rs idx → elemAt idx w = elemAt (moved rs idx) v
  | [], [], v, _, h => ⟨v, rfl, h, fun idx hi => by cases idx with | nil => rfl | cons => exact hi.elim⟩
  | [], _ :: _, _, h, _ => h.elim
  | _ :: _, [], _, h, _ => by simp [InBox] at h
  | (b, e) :: rs, d :: ds, v, hb, h => by
    obtain ⟨h1, h2, h3⟩ := hb
    obtain ⟨t, xs, rfl, hl, hy, hr⟩ := Declared.row dt hw he h
    obtain ⟨ws, g1, g2, g3⟩ := resAll_map (ys := (xs.drop b).take (e - b)) fun y hm =>
      sliceRecT_box dt hw he rs ds y h3 (hy y (List.mem_of_mem_drop (List.mem_of_mem_take hm)))
    have hlen : ws.length = e - b := by rw [g2, List.length_take, List.length_drop]; omega
    have hlr : ∀ (rs : List (Nat × Nat)) (ds : List Nat), InBox rs ds → rs.length = ds.length := by
      intro rs
      induction rs with
      | nil => intro ds h; cases ds with | nil => rfl | cons => exact h.elim
      | cons r rs ih =>
        intro ds h
        cases ds with
        | nil => simp [InBox] at h
        | cons d ds => simp [ih ds h.2.2]
    have hrun : sliceRecT (((b, e) :: rs).map fun r => ((r.1 : Int), (r.2 : Int))) (.slice t xs) = .ok (.slice t ws) := by
      rw [List.map_cons, sliceRecT.eq_def]
      simp only
      rw [if_neg (by omega), Int.toNat_natCast, show ((e : Int) - (b : Int)).toNat = e - b by omega]
      cases rs with
      | nil =>
        have : ∀ ys : List TVal, resAll (ys.map (sliceRecT [])) = .ok ys := by
          intro ys
          induction ys with
          | nil => rfl
          | cons y ys ih =>
            simp only [List.map_cons, resAll, ih]
            simp [sliceRecT]
        simp only [List.map_nil] at g1 ⊢
        rw [this] at g1
        cases g1
        rfl
      | cons r rs =>
        simp only [List.map_cons] at g1 ⊢
        rw [g1]
        rfl
    refine ⟨.slice t ws, hrun, ?_, ?_⟩
    · have := hr ws (rs.map fun r => r.2 - r.1) (by simp [hlr rs ds h3]) ?_
      · rw [hlen] at this
        exact this
      · intro w hm
        obtain ⟨i, hi, rfl⟩ := List.mem_iff_getElem.1 hm
        exact (g3 i _ _ (List.getElem?_eq_getElem (by omega)) (List.getElem?_eq_getElem hi)).1
    · intro idx hi
      cases idx with
      | nil => exact hi.elim
      | cons i is =>
        obtain ⟨i1, i2⟩ := hi
        have hw1 : ws[i]? = some ws[i] := List.getElem?_eq_getElem (by omega)
        have hx : ((xs.drop b).take (e - b))[i]? = some xs[b + i] := by
          rw [List.getElem?_take_of_lt i1, List.getElem?_drop, List.getElem?_eq_getElem]
        have := (g3 i _ _ hx hw1).2 is i2
        simp only [moved, List.zipWith_cons_cons, elemAt, hw1]
        rw [List.getElem?_eq_getElem (show b + i < xs.length by omega)]
        exact this

/-- C74. For every HDF5 file that can be opened, and a variable with at least one dimension whose bytes are
there: if `GetVariable` returns a value when the file has just been opened, then `GetSliceMD` with bounds
inside the dimensions returns an array with the type of the variable and the extents of the box, and its
elements are those of the value behind the corner of the box, whatever has been read before. Missing: what
is missing for C73; enumerations (`C74_negation_enum`); scalars (`C74_negation_scalar`). -/
theorem C74_box_partial (file : Bytes) (o : Obj) (ho : OpensTo file o) (inflate : Bytes → Res Bytes) (fuel : Nat)
    (ord : List Nat → List NamedType → List NamedType)
    (calls : List AnyRead) (hr : ∀ c ∈ calls, Reached o c.group) (G : Group) (hG : Reached o G) (name : Bytes) (k : Obj)
    (hf : G.findVariable name = some k) (dt : DT) (hdt : k.info.dt = some dt) (d : Nat) (ds : List Nat)
    (hd : k.info.dims.getD [] = d :: ds) (hk : Keeps dt) (hw : Rowwise dt) (he : ¬ IsEnum dt)
    (hB : HasBytes inflate fuel file k.info dt (d :: ds)) (hst : calls = [] ∨ Steady dt (d :: ds))
    (hn : k.info.chunk = none ∨ ∀ c ∈ calls, c.var = some k → c.isSlice = true)
    (v : TVariable) (hv : (G.getVariableT (G.cast ord) ⟨inflate, fuel, file⟩ [] name).2 = .ok v)
    (rs : List (Nat × Nat)) (hrs : InBox rs (d :: ds)) (hne : IsSeq dt → ∀ r ∈ rs.head?, r.1 < r.2) :
    ∃ w, (k.getSliceMDT (G.cast ord) ⟨inflate, fuel, file⟩ (readAny ord ⟨inflate, fuel, file⟩ calls)
        (rs.map fun r => (r.1 : Int)) (rs.map fun r => (r.2 : Int))).2 = .ok w ∧
      Declared true dt (rs.map fun r => r.2 - r.1) w ∧
      ∀ idx, InsideBox rs idx → elemAt idx w = elemAt (moved rs idx) v.values := by
  have hD : Declared true dt (d :: ds) v.values := by
    rw [← hd]
    exact (C70_declared file o ho inflate fuel ord [] (by simp) G hG name k hf dt hdt hk (.inl rfl)).1 (by simp) v hv
  obtain ⟨hlt, -⟩ := hB.bytes
  cases rs with
  | nil => exact hrs.elim
  | cons r rs =>
    obtain ⟨b, e⟩ := r
    obtain ⟨h1, h2, h3⟩ := hrs
    replace hne : IsSeq dt → b < e := fun h => hne h (b, e) rfl
    have hrow := C73_rows_partial file o ho inflate fuel ord calls hr G hG name k hf dt hdt d ds hd hk hw hB hst hn v hv b e h1 h2 hne
    obtain ⟨t, xs, hx, hl, hy, hrb⟩ := Declared.row dt hw he hD
    rw [hx] at hrow
    simp only [sliceV] at hrow
    have hpl : ((xs.drop b).take (e - b)).length = e - b := by rw [List.length_take, List.length_drop]; omega
    have hpart : Declared true dt ((e - b) :: ds) (.slice t ((xs.drop b).take (e - b))) := by
      have := hrb ((xs.drop b).take (e - b)) ds rfl fun y hm => hy y (List.mem_of_mem_drop (List.mem_of_mem_take hm))
      rw [hpl] at this
      exact this
    obtain ⟨w, w1, w2, w3⟩ := sliceRecT_box dt hw he ((0, e - b) :: rs) ((e - b) :: ds) _ ⟨Nat.zero_le _, Nat.le_refl _, h3⟩ hpart
    refine ⟨w, ?_, w2, ?_⟩
    · have hlr : ∀ (rs : List (Nat × Nat)) (ds : List Nat), InBox rs ds → rs.length = ds.length := by
        intro rs
        induction rs with
        | nil => intro ds h; cases ds with | nil => rfl | cons => exact h.elim
        | cons r rs ih =>
          intro ds h
          cases ds with
          | nil => simp [InBox] at h
          | cons d ds => simp [ih ds h.2.2]
      have hany : ∀ (rs : List (Nat × Nat)) (ds : List Nat), InBox rs ds →
          ((rs.map fun r => (r.1 : Int)).zip (rs.map fun r => (r.2 : Int))).any (fun p => decide (p.2 < p.1)) = false := by
        intro rs
        induction rs with
        | nil => intros; rfl
        | cons r rs ih =>
          intro ds h
          cases ds with
          | nil => simp [InBox] at h
          | cons d ds =>
            simp only [List.map_cons, List.zip_cons_cons, List.any_cons, ih ds h.2.2, Bool.or_false, decide_eq_false_iff_not]
            have := h.1
            omega
      have hzip : ∀ rs : List (Nat × Nat), (rs.map fun r => (r.1 : Int)).zip (rs.map fun r => (r.2 : Int)) =
          rs.map fun r => ((r.1 : Int), (r.2 : Int)) := by
        intro rs
        induction rs with
        | nil => rfl
        | cons r rs ih => simp [ih]
      unfold Obj.getSliceMDT
      rw [if_neg (by simp [hd, hlr rs ds h3]), if_neg (by rw [hany ((b, e) :: rs) (d :: ds) ⟨h1, h2, h3⟩]; simp)]
      simp only [List.map_cons]
      have hi : i64 (u64 ((e : Int) - (b : Int))) = ((e - b : Nat) : Int) := by
        rw [show (e : Int) - (b : Int) = ((e - b : Nat) : Int) by omega]
        simp only [i64, u64]
        omega
      split
      · rename_i t' x hs
        rw [hs] at hrow; cases hrow
      · rename_i t' hs
        rw [hs] at hrow; cases hrow
      · rename_i t' x hs
        rw [hs] at hrow
        cases hrow
        simp only [hi, hzip]
        exact w1
    · intro idx hi
      cases idx with
      | nil => exact hi.elim
      | cons i is =>
        obtain ⟨i1, i2⟩ := hi
        have := w3 (i :: is) ⟨by omega, i2⟩
        rw [this, hx]
        simp only [moved, List.zipWith_cons_cons, elemAt, Nat.zero_add]
        rw [List.getElem?_take_of_lt i1, List.getElem?_drop]

/-- C74: bounds that are not as many as the dimensions are refused, and so are bounds in the wrong order; the
object stays as it is. -/
theorem C74_refused (cast : DT → Res Unit) (s : Src) (o : Obj) (t : TTab) (b e : List Int) :
    ((b.length ≠ (o.info.dims.getD []).length ∨ e.length ≠ (o.info.dims.getD []).length) →
      o.getSliceMDT cast s t b e = (t, .err .dimensionality)) ∧
    (b.length = (o.info.dims.getD []).length → e.length = (o.info.dims.getD []).length →
      (∃ (i : Nat) (x y : Int), b[i]? = some x ∧ e[i]? = some y ∧ y < x) →
        o.getSliceMDT cast s t b e = (t, .err .invalidSlice)) := by
  constructor
  · intro h
    unfold Obj.getSliceMDT
    rw [if_pos h]
  · rintro h1 h2 ⟨i, x, y, hx, hy, hlt⟩
    unfold Obj.getSliceMDT
    rw [if_neg (by simp [h1, h2]), if_pos]
    refine List.any_eq_true.2 ⟨(x, y), List.mem_of_getElem? (i := i) ?_, by simpa using hlt⟩
    rw [List.getElem?_zip_eq_some]
    exact ⟨hx, hy⟩

/-! ### Files for which the theorem says something, and what is missing -/

/-- What is in a file before the data, which is at the address `a`: a variable `a` of type `t`. -/
def boxHead (dims : List Nat) (t : DType) (n a : Nat) : Bytes :=
  { othSuper with eof := a + n }.bytes ++
    header1 1 [(0, .link 0 false none none (ascii "a") 136)] ++
    header1 2 [(0, .dataspace (.v1 dims none)), (1, .datatype t), (0, .contiguous 3 a n)]

/-- A file with a variable `a`. -/
def boxFile (dims : List Nat) (t : DType) (b : Bytes) : Bytes :=
  boxHead dims t b.length (boxHead dims t b.length 0).length ++ b

/-- All of the variable `a`, and a box of it. -/
def boxRead (file : Bytes) (calls : Group → List AnyRead) (b e : List Int) : Res (Res TVal × Res TVal) :=
  (openN 20 file).map fun o =>
    let G := rootGroup o
    let s : Src := ⟨fun _ => .panic, 20, file⟩
    ((G.getVariableT (G.cast inOrder) s [] (ascii "a")).2.map (·.values),
      match G.findVariable (ascii "a") with
      | some k => (k.getSliceMDT (G.cast inOrder) s (readAny inOrder s (calls G)) b e).2
      | none => .panic)

/-- The hypotheses of C74 hold for the variable `a` of the file, whose elements are numbers. -/
def boxCase (file : Bytes) (dims : List Nat) : Bool :=
  match openN 20 file with
  | .ok o =>
    match (rootGroup o).findVariable (ascii "a") with
    | some k =>
      (match k.info.dt with | some (.fixed 2 true false) => true | _ => false) && (k.info.dims == some dims) &&
      k.info.layout.isEmpty && k.info.chunk.isNone && k.info.filters.isEmpty && k.info.fillValue.isNone &&
      k.info.fillValueOld.isNone &&
      (match k.info.blocks with | [.at a n] => decide (n = prod dims * 2) && decide (a + n ≤ file.length) | _ => false)
    | none => false
  | _ => false

def boxNumbers : Bytes := boxFile [2, 3] (.fixed 1 2 true false) [1, 0, 2, 0, 3, 0, 4, 0, 5, 0, 6, 0]

/-- Two rows of three numbers, and the second and third number of the second row, after a slice and the
whole. -/
example : boxCase boxNumbers [2, 3] = true ∧
    boxRead boxNumbers (fun G => [.slice G (ascii "a") 0 1, .whole G (ascii "a")]) [1, 1] [2, 3] =
      .ok (.ok (.slice (.slice (.num .i16))
          [.slice (.num .i16) [.num .i16 1, .num .i16 2, .num .i16 3], .slice (.num .i16) [.num .i16 4, .num .i16 5, .num .i16 6]]),
        .ok (.slice (.slice (.num .i16)) [.slice (.num .i16) [.num .i16 5, .num .i16 6]])) := by
  decide +kernel

example : boxRead boxNumbers (fun _ => []) [0, 2] [2, 1] = .ok (.ok (.slice (.slice (.num .i16))
    [.slice (.num .i16) [.num .i16 1, .num .i16 2, .num .i16 3], .slice (.num .i16) [.num .i16 4, .num .i16 5, .num .i16 6]]),
      .err .invalidSlice) := by
  decide +kernel

/-- C74 fails for enumerations: `GetSliceMD` cuts the first dimension only. -/
theorem C74_negation_enum :
    boxRead (boxFile [2, 2] (.enum 3 1 1 true false [ascii "A", ascii "B"] [0, 1]) [0, 1, 1, 0]) (fun _ => []) [1, 1] [2, 2] =
      .ok (.ok (.enum (.slice (.slice (.num .i8))
          [.slice (.num .i8) [.num .i8 0, .num .i8 1], .slice (.num .i8) [.num .i8 1, .num .i8 0]])
          [ascii "A", ascii "B"] [.num .i8 0, .num .i8 1]),
        .ok (.enum (.slice (.slice (.num .i8)) [.slice (.num .i8) [.num .i8 1, .num .i8 0]])
          [ascii "A", ascii "B"] [.num .i8 0, .num .i8 1])) := by
  decide +kernel

/-- C74 fails for scalars of any type: `GetSliceMD` without bounds panics. -/
theorem C74_negation_scalar (cast : DT → Res Unit) (s : Src) (o : Obj) (t : TTab) (h : o.info.dims.getD [] = []) :
    (o.getSliceMDT cast s t [] []).2 = .panic := by
  unfold Obj.getSliceMDT
  simp [h]

-- there are such variables
example : boxRead (boxFile [] (.fixed 1 2 true false) [7, 0]) (fun _ => []) [] [] = .ok (.ok (.num .i16 7), .panic) := by
  decide +kernel

end Verif.H5
