import Verif.Lemmas.H5UserTypes
/-!
Writing arrays of values of user-defined types.
-/
namespace Verif.H5
open Verif.Cdf

/-- The elements behind `n` dimensions. -/
def leavesT : Nat → TVal → List TVal
  | 0, v => [v]
  | n + 1, .slice _ xs => xs.flatMap (leavesT n)
  | _ + 1, _ => []

theorem leavesT_sat {base : TTy} {leaf : TVal → Prop} {dims : List Nat} {v : TVal} (h : ArrT base leaf dims v) :
    ∀ x ∈ leavesT dims.length v, leaf x := by
  induction dims generalizing v with
  | nil =>
    intro x hx
    simp only [List.length_nil, leavesT, List.mem_singleton] at hx
    subst hx
    exact h
  | cons d ds ih =>
    obtain ⟨xs, rfl, -, hx⟩ := h
    intro y hy
    simp only [List.length_cons, leavesT, List.mem_flatMap] at hy
    obtain ⟨x, h1, h2⟩ := hy
    exact ih (hx x h1) y h2

theorem leavesT_length {base : TTy} {leaf : TVal → Prop} {dims : List Nat} {v : TVal} (h : ArrT base leaf dims v) :
    (leavesT dims.length v).length = prod dims := by
  induction dims generalizing v with
  | nil => simp [leavesT, prod]
  | cons d ds ih =>
    obtain ⟨xs, rfl, hd, hx⟩ := h
    simp only [List.length_cons, leavesT, prod, ← hd]
    clear hd
    induction xs with
    | nil => simp
    | cons x xs ihx =>
      simp only [List.flatMap_cons, List.length_append, ih (hx x (by simp)), ihx fun y hy => hx y (by simp [hy]),
        List.length_cons, Nat.add_mul]
      omega

/-- An array of elements that are shown. -/
theorem shown_arr {heap : HeapFn} {dt : DT} {base : TTy} {leaf : TVal → Prop} (hby : ByElement dt)
    (hgo : ∀ ds, goTy dt ds = sliceTy base ds) {dims : List Nat}
    (hz : (∃ n e, dt = .vlen n false e) → ∀ d ∈ dims, d ≠ 0) {v : TVal} (hv : ArrT base leaf dims v)
    {bs : List Bytes} (h : Pairs (fun x b => Shown heap dt [] b x) (leavesT dims.length v) bs) :
    Shown heap dt dims bs.flatten v := by
  induction dims generalizing v bs with
  | nil =>
    simp only [List.length_nil, leavesT] at h
    cases h with
    | cons hr h =>
      cases h
      simpa using hr
  | cons d ds ih =>
    obtain ⟨xs, rfl, hd, hx⟩ := hv
    rw [← hgo ds]
    simp only [List.length_cons, leavesT] at h
    have hgroup : ∀ (xs : List TVal) (bs : List Bytes), (∀ x ∈ xs, ArrT base leaf ds x) →
        Pairs (fun x b => Shown heap dt [] b x) (xs.flatMap (leavesT ds.length)) bs →
        ∃ cs : List Bytes, cs.flatten = bs.flatten ∧ Pairs (fun v b => Shown heap dt ds b v) xs cs := by
      intro xs
      induction xs with
      | nil =>
        intro bs _ h
        cases h
        exact ⟨[], rfl, .nil⟩
      | cons x xs ihx =>
        intro bs hx h
        rw [List.flatMap_cons] at h
        obtain ⟨bs1, bs2, rfl, h1, h2⟩ := h.split
        obtain ⟨cs, e, hc⟩ := ihx bs2 (fun y hy => hx y (by simp [hy])) h2
        refine ⟨bs1.flatten :: cs, by simp [e], .cons (ih (fun hs e he => hz hs e (by simp [he])) (hx x (by simp)) h1) hc⟩
    obtain ⟨cs, e, hc⟩ := hgroup xs bs hx h
    have := shown_rows heap dt ds hby xs cs (by
      intro hs he
      have := hz hs d (by simp)
      simp [he] at hd
      omega) hc
    rw [hd, e] at this
    exact this

/-! ### Data -/

theorem writeValsT_append (be : Bool) (heap : Option Heap) (fl : Nat) (xs ys : List TVal) (n : Nat) (vl : List Nat) :
    writeValsT be heap fl (xs ++ ys) n vl =
      match writeValsT be heap fl xs n vl with
      | .err e => .err e
      | .panic => .panic
      | .ok (b, vl) =>
        match writeValsT be heap fl ys n vl with
        | .err e => .err e
        | .panic => .panic
        | .ok (b', vl) => .ok (b ++ b', vl) := by
  induction xs generalizing vl with
  | nil =>
    simp only [List.nil_append, writeValsT]
    cases writeValsT be heap fl ys n vl with
    | err e => rfl
    | panic => rfl
    | ok r => rfl
  | cons x xs ih =>
    simp only [List.cons_append, writeValsT]
    cases writeValT be heap fl x n vl with
    | err e => rfl
    | panic => rfl
    | ok r =>
      simp only [ih]
      cases writeValsT be heap fl xs n r.2 with
      | err e => rfl
      | panic => rfl
      | ok r2 =>
        simp only
        cases writeValsT be heap fl ys n r2.2 with
        | err e => rfl
        | panic => rfl
        | ok r3 => simp only [List.append_assoc]

/-- An array is written as its elements in row-major order. -/
theorem writeValT_leaves (be : Bool) (heap : Option Heap) (fl : Nat) {base : TTy} {leaf : TVal → Prop} {dims : List Nat}
    {v : TVal} (hv : ArrT base leaf dims v) (vl : List Nat) :
    writeValT be heap fl v dims.length vl = writeValsT be heap fl (leavesT dims.length v) 0 vl := by
  induction dims generalizing v vl with
  | nil =>
    simp only [List.length_nil, leavesT, writeValsT]
    cases writeValT be heap fl v 0 vl with
    | err e => rfl
    | panic => rfl
    | ok r => simp
  | cons d ds ih =>
    obtain ⟨xs, rfl, -, hx⟩ := hv
    simp only [List.length_cons, leavesT, writeValT, Nat.add_one_ne_zero, ↓reduceIte, Nat.add_one_sub_one]
    induction xs generalizing vl with
    | nil => rfl
    | cons x xs ihx =>
      have h2 := fun vl => ihx vl (fun y hy => hx y (by simp [hy]))
      simp only [List.flatMap_cons, writeValsT_append, ← ih (hx x (by simp)), writeValsT]
      cases writeValT be heap fl x ds.length vl with
      | err e => rfl
      | panic => rfl
      | ok r =>
        simp only [h2]
        cases writeValsT be heap fl (xs.flatMap (leavesT ds.length)) 0 r.2 <;> rfl

/-- The elements of arrays. -/
def IsLeaf : TVal → Prop
  | .num .. | .compound .. | .opaque _ | .slice .. => True
  | _ => False

theorem writeValsT_fields (be : Bool) (heap : Option Heap) (fl : Nat) (xs : List TVal) (hx : ∀ x ∈ xs, IsLeaf x)
    (vl : List Nat) : writeValsT be heap fl xs 0 vl = writeFieldsT be heap xs vl := by
  induction xs generalizing vl with
  | nil => rfl
  | cons x xs ih =>
    have e : writeValT be heap fl x 0 vl = writeFieldT be heap x vl := by
      have := hx x (by simp)
      cases x <;> first | (simp [IsLeaf] at this; done) | simp [writeValT, writeFieldT]
    rw [writeValsT, writeFieldsT, e]
    simp only [ih fun y hy => hx y (by simp [hy])]

/-! ### Sequences -/

theorem collectFieldVlensT_append (be : Bool) (h : Heap) (xs ys : List TVal) :
    collectFieldVlensT be h (xs ++ ys) =
      match collectFieldVlensT be h xs with
      | .err e => .err e
      | .panic => .panic
      | .ok (h, is) =>
        match collectFieldVlensT be h ys with
        | .err e => .err e
        | .panic => .panic
        | .ok (h, is') => .ok (h, is ++ is') := by
  induction xs generalizing h with
  | nil =>
    simp only [List.nil_append, collectFieldVlensT]
    cases collectFieldVlensT be h ys with
    | err e => rfl
    | panic => rfl
    | ok r => rfl
  | cons x xs ih =>
    simp only [List.cons_append, collectFieldVlensT]
    cases collectFieldVlenT be h x with
    | err e => rfl
    | panic => rfl
    | ok r =>
      simp only [ih]
      cases collectFieldVlensT be r.1 xs with
      | err e => rfl
      | panic => rfl
      | ok r2 =>
        simp only
        cases collectFieldVlensT be r2.1 ys with
        | err e => rfl
        | panic => rfl
        | ok r3 => simp only [List.append_assoc]

theorem collectFieldVlensT_one (be : Bool) (h : Heap) (x : TVal) :
    collectFieldVlensT be h [x] = collectFieldVlenT be h x := by
  simp only [collectFieldVlensT]
  cases collectFieldVlenT be h x with
  | err e => rfl
  | panic => rfl
  | ok r => simp

theorem varyingT_same {base : TTy} {leaf : TVal → Prop} {n : Nat} (hn : ∀ x, leaf x → rowLenT x = n) {ds : List Nat}
    {xs : List TVal} (hx : ∀ x ∈ xs, ArrT base leaf ds x) : varyingT (sliceTy base ds) xs = false := by
  have key : ∃ m, ∀ x ∈ xs, rowLenT x = m := by
    cases ds with
    | nil => exact ⟨n, fun x h => hn x (hx x h)⟩
    | cons d ds =>
      refine ⟨d, fun x h => ?_⟩
      obtain ⟨ys, rfl, hd, -⟩ := hx x h
      exact hd
  obtain ⟨m, hm⟩ := key
  cases xs with
  | nil => rfl
  | cons x xs =>
    simp only [varyingT, Bool.and_eq_false_imp, List.any_eq_false, bne_iff_ne, ne_eq, Decidable.not_not]
    intro _ y hy
    rw [hm y (by simp [hy]), hm x (by simp)]

/-- The sequences in the elements of an array whose elements have all one length. -/
theorem collectAttrVlenT_leaves {base : TTy} {leaf : TVal → Prop} {n : Nat} (hn : ∀ x, leaf x → rowLenT x = n)
    (hl : ∀ x, leaf x → ∀ h, collectAttrVlenT false h x = collectFieldVlenT false h x) {dims : List Nat} {v : TVal}
    (hv : ArrT base leaf dims v) (h : Heap) :
    collectAttrVlenT false h v = collectFieldVlensT false h (leavesT dims.length v) := by
  induction dims generalizing v h with
  | nil => rw [List.length_nil, leavesT, collectFieldVlensT_one, hl v hv]
  | cons d ds ih =>
    obtain ⟨xs, rfl, -, hx⟩ := hv
    simp only [collectAttrVlenT, varyingT_same hn hx, Bool.false_eq_true, ↓reduceIte, List.length_cons, leavesT]
    induction xs generalizing h with
    | nil => rfl
    | cons x xs ihx =>
      have h2 := fun h => ihx h (fun y hy => hx y (by simp [hy]))
      simp only [List.flatMap_cons, collectFieldVlensT_append, ← ih (hx x (by simp)), collectAttrVlensT]
      cases collectAttrVlenT false h x with
      | err e => rfl
      | panic => rfl
      | ok r => simp only [h2]; rfl

theorem serializesT_fields (be : Bool) (h : Heap) (xs : List TVal) (hx : ∀ x ∈ xs, ∃ t ys, x = .slice t ys) :
    serializesT be h xs = collectFieldVlensT be h xs := by
  induction xs generalizing h with
  | nil => rfl
  | cons x xs ih =>
    obtain ⟨t, ys, rfl⟩ := hx x (by simp)
    simp only [serializesT, collectFieldVlensT, collectFieldVlenT]
    cases serializeT be h (.slice t ys) with
    | err e => rfl
    | panic => rfl
    | ok r =>
      simp only [ih r.1 fun y hy => hx y (by simp [hy])]
      cases collectFieldVlensT be r.1 xs with
      | err e => rfl
      | panic => rfl
      | ok r2 => simp

theorem varyingT_uneven {e : TTy} {xs : List TVal} {a b : List TVal} {e1 : TTy} (hk : isKindSlice e = true)
    (ha : .slice e1 a ∈ xs) (hb : .slice e1 b ∈ xs) (hne : a.length ≠ b.length) : varyingT e xs = true := by
  cases xs with
  | nil => simp at ha
  | cons x xs =>
    simp only [varyingT, hk, Bool.true_and, List.any_eq_true, bne_iff_ne, ne_eq]
    by_cases h : a.length = rowLenT x
    · rcases List.mem_cons.1 hb with rfl | hb
      · exact absurd h hne
      · refine ⟨_, hb, ?_⟩
        show ¬ b.length = rowLenT x
        omega
    · rcases List.mem_cons.1 ha with rfl | ha
      · exact absurd rfl h
      · exact ⟨_, ha, h⟩

/-- Sequences of different lengths. -/
theorem collectAttrVlenT_uneven {base : TTy} {leaf : TVal → Prop} (hs : ∀ x, leaf x → ∃ t ys, x = .slice t ys)
    (hk : isKindSlice base = true) {dims : List Nat} {v : TVal} (hv : ArrT base leaf dims v)
    (hu : UnevenT dims.length v) (h : Heap) :
    collectAttrVlenT false h v = collectFieldVlensT false h (leavesT dims.length v) ∧
      ((∀ d ∈ dims, d ≠ 0) → attrDimsLoop v = dims) := by
  induction dims generalizing v h with
  | nil => simp [UnevenT] at hu
  | cons d ds ih =>
    obtain ⟨xs, rfl, hd, hx⟩ := hv
    cases ds with
    | nil =>
      simp only [List.length_cons, List.length_nil, UnevenT] at hu
      obtain ⟨e, a, b, ha, hb, hne⟩ := hu
      have hvary : varyingT (sliceTy base []) xs = true := varyingT_uneven (by simpa [sliceTy] using hk) ha hb hne
      refine ⟨?_, fun _ => ?_⟩
      · simp only [collectAttrVlenT, hvary, ↓reduceIte, List.length_cons, List.length_nil, leavesT]
        rw [serializesT_fields _ _ _ fun x h => hs x (hx x h)]
        congr 1
        clear ha hb hvary hd
        induction xs with
        | nil => rfl
        | cons x xs ihx =>
          rw [List.flatMap_cons, ← ihx fun y hy => hx y (by simp [hy])]
          simp [leavesT]
      · simp [attrDimsLoop, hvary, hd]
    | cons d2 ds =>
      simp only [List.length_cons, UnevenT] at hu
      have hnv : varyingT (sliceTy base (d2 :: ds)) xs = false := by
        cases xs with
        | nil => rfl
        | cons x xs =>
          simp only [varyingT, Bool.and_eq_false_imp, List.any_eq_false, bne_iff_ne, ne_eq, Decidable.not_not]
          intro _ y hy
          obtain ⟨ys, rfl, h1, -⟩ := hx y (by simp [hy])
          obtain ⟨zs, rfl, h2, -⟩ := hx x (by simp)
          simp [rowLenT, h1, h2]
      refine ⟨?_, fun hpos => ?_⟩
      · simp only [collectAttrVlenT, hnv, Bool.false_eq_true, ↓reduceIte]
        rw [show (d :: d2 :: ds).length = (d2 :: ds).length + 1 from rfl, leavesT]
        clear hd hnv
        induction xs generalizing h with
        | nil => rfl
        | cons x xs ihx =>
          have h2 := fun h => ihx h (fun y hy => hx y (by simp [hy])) (fun y hy => hu y (by simp [hy]))
          simp only [List.flatMap_cons, collectFieldVlensT_append,
            ← (ih (hx x (by simp)) (hu x (by simp)) _).1, collectAttrVlensT]
          cases collectAttrVlenT false h x with
          | err e => rfl
          | panic => rfl
          | ok r => simp only [h2]; rfl
      · cases xs with
        | nil =>
          simp at hd
          exact absurd hd.symm (hpos d (by simp))
        | cons x xs =>
          simp only [attrDimsLoop, hnv, Bool.false_eq_true, ↓reduceIte, attrDimsHeadT,
            (ih (hx x (by simp)) (hu x (by simp)) h).2 fun y hy => hpos y (by simp [hy]), hd]

/-- The sequences of a variable. -/
theorem collectVarVlenT_leaves {base : TTy} {leaf : TVal → Prop} (hs : ∀ x, leaf x → ∃ t ys, x = .slice t ys)
    {dims : List Nat} {v : TVal} (hv : ArrT base leaf dims v) (h : Heap) :
    collectVarVlenT false h v dims.length = collectFieldVlensT false h (leavesT dims.length v) := by
  induction dims generalizing v h with
  | nil =>
    obtain ⟨t, ys, rfl⟩ := hs v hv
    rw [List.length_nil, leavesT, collectFieldVlensT_one]
    simp only [collectVarVlenT, ↓reduceIte, collectFieldVlenT]
    cases serializeT false h (.slice t ys) <;> rfl
  | cons d ds ih =>
    obtain ⟨xs, rfl, -, hx⟩ := hv
    simp only [collectVarVlenT, List.length_cons, Nat.add_one_ne_zero, ↓reduceIte, Nat.add_one_sub_one, leavesT]
    induction xs generalizing h with
    | nil => rfl
    | cons x xs ihx =>
      have h2 := fun h => ihx h (fun y hy => hx y (by simp [hy]))
      simp only [List.flatMap_cons, collectFieldVlensT_append, ← ih (hx x (by simp)), collectVarVlensT]
      cases collectVarVlenT false h x ds.length with
      | err e => rfl
      | panic => rfl
      | ok r => simp only [h2]; rfl

/-- Whether there are sequences is up to the first element. -/
theorem hasVlenLoop_arr {base : TTy} {leaf : TVal → Prop} {r : Bool} (hl : ∀ x, leaf x → hasVlenLoop x 0 = r)
    {dims : List Nat} (hpos : ∀ d ∈ dims, d ≠ 0) {v : TVal} (hv : ArrT base leaf dims v) :
    hasVlenLoop v dims.length = r := by
  induction dims generalizing v with
  | nil => exact hl v hv
  | cons d ds ih =>
    obtain ⟨xs, rfl, hd, hx⟩ := hv
    cases xs with
    | nil => exact absurd hd.symm (hpos d (by simp))
    | cons x xs =>
      simp only [hasVlenLoop, List.length_cons, Nat.add_one_ne_zero, ↓reduceIte, Nat.add_one_sub_one, hasVlenHeadT]
      exact ih (fun y hy => hpos y (by simp [hy])) (hx x (by simp))

/-- The same for numbers: the last length may be zero. -/
theorem hasVlen_num {k : Kind} {leaf : TVal → Prop} (hl : ∀ x, leaf x → hasVlenLoop x 0 = false)
    {dims : List Nat} (hpos : ∀ d ∈ dims.dropLast, d ≠ 0) {v : TVal} (hv : ArrT (.num k) leaf dims v) :
    hasVlenLoop v dims.length = false := by
  induction dims generalizing v with
  | nil => exact hl v hv
  | cons d ds ih =>
    obtain ⟨xs, rfl, hd, hx⟩ := hv
    simp only [hasVlenLoop, List.length_cons, Nat.add_one_ne_zero, ↓reduceIte, Nat.add_one_sub_one]
    cases xs with
    | nil =>
      cases ds with
      | nil => rfl
      | cons d2 ds => exact absurd hd.symm (hpos d (by simp))
    | cons x xs =>
      simp only [hasVlenHeadT]
      refine ih ?_ (hx x (by simp))
      intro y hy
      cases ds with
      | nil => simp at hy
      | cons d2 ds => exact hpos y (by simp [hy])

/-! ### Strings -/

theorem collectFieldStringsT_append (h : Heap) (xs ys : List TVal) :
    collectFieldStringsT h (xs ++ ys) = collectFieldStringsT (collectFieldStringsT h xs) ys := by
  induction xs generalizing h with
  | nil => rfl
  | cons x xs ih => simp only [List.cons_append, collectFieldStringsT, ih]

theorem stripKinds_sliceTy (base : TTy) (ds : List Nat) : (stripKinds (sliceTy base ds)).1 = (stripKinds base).1 := by
  induction ds with
  | nil => rfl
  | cons d ds ih => simp [sliceTy, stripKinds, ih]

theorem collectStringsT_leaves {base : TTy} {leaf : TVal → Prop} (hb : (stripKinds base).1 ≠ .str)
    (hl : ∀ x, leaf x → ∀ h, collectStringsT h x = collectFieldStringT h x) {dims : List Nat} {v : TVal}
    (hv : ArrT base leaf dims v) (h : Heap) :
    collectStringsT h v = collectFieldStringsT h (leavesT dims.length v) := by
  induction dims generalizing v h with
  | nil => simp [leavesT, collectFieldStringsT, hl v hv]
  | cons d ds ih =>
    obtain ⟨xs, rfl, -, hx⟩ := hv
    have : ((stripKinds (sliceTy base ds)).1 == .str) = false := by
      rw [stripKinds_sliceTy, beq_eq_false_iff_ne]
      exact hb
    simp only [collectStringsT, this, Bool.false_eq_true, ↓reduceIte, List.length_cons, leavesT]
    induction xs generalizing h with
    | nil => rfl
    | cons x xs ihx =>
      simp only [collectStringsLT, List.flatMap_cons, collectFieldStringsT_append, ih (hx x (by simp)),
        ihx _ (fun y hy => hx y (by simp [hy]))]

/-! ### Shape -/

theorem getDimsLimitedT_arr {base : TTy} {leaf : TVal → Prop} (hl : ∀ x, leaf x → getDimsLimitedT x 0 = [])
    {dims : List Nat} (hpos : ∀ d ∈ dims.dropLast, d ≠ 0) {v : TVal} (hv : ArrT base leaf dims v) :
    getDimsLimitedT v dims.length = dims := by
  induction dims generalizing v with
  | nil => exact hl v hv
  | cons d ds ih =>
    obtain ⟨xs, rfl, hd, hx⟩ := hv
    simp only [getDimsLimitedT, List.length_cons, Nat.add_one_ne_zero, ↓reduceIte, Nat.add_one_sub_one, hd]
    cases xs with
    | nil =>
      cases ds with
      | nil => rfl
      | cons d2 ds => exact absurd hd.symm (hpos d (by simp))
    | cons x xs =>
      simp only [getDimsLimitedHeadT]
      rw [ih ?_ (hx x (by simp))]
      intro y hy
      cases ds with
      | nil => simp at hy
      | cons d2 ds => exact hpos y (by simp [hy])

theorem attrDimsLoop_arr {base : TTy} {leaf : TVal → Prop} {n : Nat} (hn : ∀ x, leaf x → rowLenT x = n)
    (hl : ∀ x, leaf x → attrDimsLoop x = []) {dims : List Nat} (hpos : ∀ d ∈ dims.dropLast, d ≠ 0) {v : TVal}
    (hv : ArrT base leaf dims v) : attrDimsLoop v = dims := by
  induction dims generalizing v with
  | nil => exact hl v hv
  | cons d ds ih =>
    obtain ⟨xs, rfl, hd, hx⟩ := hv
    simp only [attrDimsLoop, varyingT_same hn hx, Bool.false_eq_true, ↓reduceIte, hd]
    cases xs with
    | nil =>
      cases ds with
      | nil => rfl
      | cons d2 ds => exact absurd hd.symm (hpos d (by simp))
    | cons x xs =>
      simp only [attrDimsHeadT]
      rw [ih ?_ (hx x (by simp))]
      intro y hy
      cases ds with
      | nil => simp at hy
      | cons d2 ds => exact hpos y (by simp [hy])

theorem stripTyT_sliceTy (base : TTy) (ds : List Nat) : stripTyT ds.length (sliceTy base ds) = (base, ds.length) := by
  induction ds with
  | nil => cases base <;> rfl
  | cons d ds ih => simp [sliceTy, stripTyT, ih]

theorem arrT_ty {base : TTy} {leaf : TVal → Prop} (hl : ∀ x, leaf x → x.ty = base) {dims : List Nat} {v : TVal}
    (hv : ArrT base leaf dims v) : v.ty = sliceTy base dims := by
  cases dims with
  | nil => exact hl v hv
  | cons d ds =>
    obtain ⟨xs, rfl, -, -⟩ := hv
    rfl

theorem navigateT_arr {base : TTy} {leaf : TVal → Prop} {dims : List Nat} (hpos : ∀ d ∈ dims, d ≠ 0) {v : TVal}
    (hv : ArrT base leaf dims v) : ∃ x, leaf x ∧ navigateT v dims.length = x ∧ weightT x ≤ weightT v := by
  induction dims generalizing v with
  | nil => exact ⟨v, hv, by cases v <;> simp [navigateT], Nat.le_refl _⟩
  | cons d ds ih =>
    obtain ⟨xs, rfl, hd, hx⟩ := hv
    cases xs with
    | nil => exact absurd hd.symm (hpos d (by simp))
    | cons x xs =>
      obtain ⟨y, h1, h2, h3⟩ := ih (fun y hy => hpos y (by simp [hy])) (hx x (by simp))
      refine ⟨y, h1, by simp [navigateT, navigateHeadT, h2], ?_⟩
      simp only [weightT, weightsT]
      omega

theorem supportedT_arr {base : TTy} {leaf : TVal → Prop} (hl : ∀ x, leaf x → supportedT x = true)
    (hb : supportedTyT base = true) {dims : List Nat} {v : TVal} (hv : ArrT base leaf dims v) : supportedT v = true := by
  have hty : ∀ ds : List Nat, supportedTyT (sliceTy base ds) = true := by
    intro ds
    induction ds with
    | nil => exact hb
    | cons d ds ih => simpa [sliceTy, supportedTyT] using ih
  induction dims generalizing v with
  | nil => exact hl v hv
  | cons d ds ih =>
    obtain ⟨xs, rfl, hd, hx⟩ := hv
    cases xs with
    | nil => simp [supportedT, supportedHeadT, hty]
    | cons x xs => simpa [supportedT, supportedHeadT] using ih (hx x (by simp))

/-! ### Datatypes -/

theorem memberBits_map (k : Kind) (vs : List Nat) : memberBits k (vs.map (.num k)) = some vs := by
  induction vs with
  | nil => rfl
  | cons v vs ih => simp [memberBits, ih]

theorem item_dims {t : WTy} {x : TVal} (h : Item false false t x) : getDimsT x = [] := by
  cases h <;> simp [getDimsT]

theorem weightT_pos (v : TVal) : 3 ≤ weightT v := by
  cases v <;> simp [weightT]

theorem num_dt (k : Kind) (bits f : Nat) (hf : 1 ≤ f) : dtT f (.num k bits) 0 = .ok (.num k) := by
  obtain ⟨f, rfl⟩ : ∃ g, f = g + 1 := ⟨f - 1, by omega⟩
  simp [dtT, TVal.ty, stripTyT]

theorem fields_dt {ts : List WTy} {vs : List TVal} (hl : vs.length = ts.length)
    (hi : ∀ (i : Nat) (t : WTy) (v : TVal), ts[i]? = some t → vs[i]? = some v →
      (∃ s, v = .str s ∧ t = .vlenStr) ∨ ((∀ s, v ≠ .str s) ∧ ∀ f, weightT v ≤ f → dtT f v 0 = .ok t)) (f : Nat)
    (hf : weightsT vs + 1 ≤ f) : dtFieldsT f vs = .ok ts := by
  induction ts generalizing vs f with
  | nil =>
    obtain rfl : vs = [] := by simpa using hl
    obtain ⟨f, rfl⟩ : ∃ g, f = g + 1 := ⟨f - 1, by omega⟩
    rfl
  | cons t ts ih =>
    cases vs with
    | nil => simp at hl
    | cons v vs =>
      obtain ⟨f, rfl⟩ : ∃ g, f = g + 1 := ⟨f - 1, by omega⟩
      simp only [weightsT] at hf
      have h2 := ih (vs := vs) (by simpa using hl)
        (fun i t v h1 h2 => hi (i + 1) t v (by simpa using h1) (by simpa using h2)) f (by omega)
      rcases hi 0 t v rfl rfl with ⟨s, rfl, rfl⟩ | ⟨hns, h1⟩
      · simp [dtFieldsT, h2]
      · have h1 := h1 f (by omega)
        cases v with
        | str s => exact absurd rfl (hns s)
        | _ => simp only [dtFieldsT, h1, h2]

/-- The datatype of an element. -/
theorem item_dt {a b : Bool} {t : WTy} {v : TVal} (h : Item a b t v) :
    (∃ s, v = .str s ∧ t = .vlenStr) ∨ ((∀ s, v ≠ .str s) ∧ ∀ f, weightT v ≤ f → dtT f v 0 = .ok t) := by
  induction h with
  | num k bits hk => exact .inr ⟨by simp, fun f hf => num_dt k bits f (by simp [weightT] at hf; omega)⟩
  | blob bs =>
    refine .inr ⟨by simp, fun f hf => ?_⟩
    obtain ⟨f, rfl⟩ : ∃ g, f = g + 1 := ⟨f - 1, by simp [weightT] at hf; omega⟩
    simp [dtT, TVal.ty, stripTyT, navigateT]
  | enum k bits ns vs hf' hk =>
    refine .inr ⟨by simp, fun f hf => ?_⟩
    obtain ⟨f, rfl⟩ : ∃ g, f = g + 1 := ⟨f - 1, by simp [weightT] at hf; omega⟩
    simp [dtT, enumTy, firstScalar, hf', memberBits_map]
  | str s => exact .inl ⟨s, rfl, rfl⟩
  | seq t xs hx hp he hl ih =>
    refine .inr ⟨by simp, fun f hf => ?_⟩
    have hpos := weightT_pos (.slice (goTy t.dt []) xs)
    obtain ⟨f, rfl⟩ : ∃ g, f = g + 1 := ⟨f - 1, by omega⟩
    cases xs with
    | nil =>
      obtain ⟨k, rfl⟩ := he rfl
      have e : goTy (WTy.num k).dt [] = .num k := by rw [goTy_num, sliceTy]
      simp only [weightT, weightsT] at hf
      simp [dtT, TVal.ty, stripTyT, navigateT, firstElemT, e, zeroValT, getDimsT, num_dt k 0 f (by omega)]
    | cons x xs =>
      have hx0 := hx x (by simp)
      simp only [weightT, weightsT] at hf
      rcases ih x (by simp) with ⟨s, rfl, -⟩ | ⟨-, h1⟩
      · cases hx0
      · simp [dtT, TVal.ty, stripTyT, navigateT, firstElemT, item_dims hx0, h1 f (by omega)]
  | compound ns ts vs hn hl _ ih =>
    refine .inr ⟨by simp, fun f hf => ?_⟩
    simp only [weightT] at hf
    obtain ⟨f, rfl⟩ : ∃ g, f = g + 1 := ⟨f - 1, by omega⟩
    simp [dtT, TVal.ty, stripTyT, navigateT, fields_dt hl ih f (by omega)]

/-- The datatype of an array is the one of its first element. -/
theorem dtT_nav (f : Nat) (v x : TVal) (n m : Nat) (hv : ∀ a b c, v ≠ .enum a b c)
    (hx : IsLeaf x) (h1 : stripTyT n v.ty = (x.ty, m)) (h2 : navigateT v m = x) :
    dtT (f + 1) v n = dtT (f + 1) x 0 := by
  cases v with
  | enum a b c => exact absurd rfl (hv a b c)
  | _ =>
    simp only [dtT, h1, h2]
    clear h1 h2 hv
    cases x with
    | num k bits => simp [TVal.ty, dtT, stripTyT]
    | compound ns vs => simp [TVal.ty, dtT, stripTyT, navigateT]
    | «opaque» b => simp [TVal.ty, dtT, stripTyT, navigateT]
    | slice t xs => simp [TVal.ty, dtT, stripTyT, navigateT]
    | _ => simp [IsLeaf] at hx

/-! ### The elements of arrays -/

theorem supported_fields {ts : List WTy} {vs : List TVal} (hl : vs.length = ts.length)
    (hi : ∀ (i : Nat) (t : WTy) (v : TVal), ts[i]? = some t → vs[i]? = some v → supportedT v = true) :
    supportedAllT vs = true := by
  induction ts generalizing vs with
  | nil =>
    obtain rfl : vs = [] := by simpa using hl
    rfl
  | cons t ts ih =>
    cases vs with
    | nil => simp at hl
    | cons v vs =>
      simp only [supportedAllT, Bool.and_eq_true]
      exact ⟨hi 0 t v rfl rfl, ih (by simpa using hl) fun i t v h1 h2 => hi (i + 1) t v (by simpa using h1) (by simpa using h2)⟩

theorem item_supported {a b : Bool} {t : WTy} {v : TVal} (h : Item a b t v) : supportedT v = true := by
  induction h with
  | num k bits hk => rfl
  | blob bs => rfl
  | enum k bits ns vs hf hk => rfl
  | str s => rfl
  | seq t xs hx hp he hl ih =>
    cases xs with
    | nil =>
      obtain ⟨k, rfl⟩ := he rfl
      simp [supportedT, supportedHeadT, goTy_num, sliceTy, supportedTyT]
    | cons x xs => simpa [supportedT, supportedHeadT] using ih x (by simp)
  | compound ns ts vs hn hl _ ih => simpa [supportedT] using supported_fields hl ih

/-- What the writer does with one element of an array. -/
structure ElemOK (b : Bool) (base : TTy) (n : Nat) (x : TVal) : Prop where
  leaf : IsLeaf x
  ty : x.ty = base
  row : rowLenT x = n
  vlen : ∀ h, collectAttrVlenT false h x = collectFieldVlenT false h x
  strs : ∀ h, collectStringsT h x = collectFieldStringT h x
  dims : getDimsLimitedT x 0 = []
  attrDims : attrDimsLoop x = []
  has : b = false → hasVlenLoop x 0 = false

/-- The number of members or bytes. -/
def recordRow : WTy → Nat
  | .compound _ ts => ts.length
  | .opaque n => n
  | _ => 0

theorem no_seq_fields {a : Bool} {ts : List WTy} {vs : List TVal} (hl : vs.length = ts.length)
    (hi : ∀ (i : Nat) (t : WTy) (v : TVal), ts[i]? = some t → vs[i]? = some v → Item a false t v) :
    (vs.any fun v => match v with | .slice .. => true | _ => false) = false := by
  rw [List.any_eq_false]
  intro v hv
  obtain ⟨i, hlt, e⟩ := List.getElem_of_mem hv
  obtain ⟨u, hu⟩ : ∃ u, ts[i]? = some u := ⟨ts[i], by simp⟩
  have := hi i u v hu (by rw [List.getElem?_eq_getElem hlt, e])
  cases this <;> simp

theorem record_elem {a b : Bool} {t : WTy} (ht : t.Record) {x : TVal} (h : Item a b t x) :
    ElemOK b (goTy t.dt []) (recordRow t) x := by
  cases h with
  | blob bs =>
    exact ⟨trivial, rfl, rfl, fun h => rfl, fun h => rfl, by simp [getDimsLimitedT], by simp [attrDimsLoop],
      fun _ => by simp [hasVlenLoop]⟩
  | compound ns ts vs hn hl hi =>
    refine ⟨trivial, by simp [TVal.ty, goTy, WTy.dt, sliceTy], by simp [rowLenT, recordRow, hl],
      fun h => by simp [collectAttrVlenT, collectFieldVlenT], fun h => by simp [collectStringsT, collectFieldStringT],
      by simp [getDimsLimitedT], by simp [attrDimsLoop], ?_⟩
    rintro rfl
    simp only [hasVlenLoop, ↓reduceIte]
    exact no_seq_fields hl hi
  | _ => cases ht

theorem num_elem {a b : Bool} {k : Kind} {x : TVal} (h : Item a b (.num k) x) : ElemOK b (.num k) 0 x := by
  cases h
  exact ⟨trivial, rfl, rfl, fun h => rfl, fun h => rfl, by simp [getDimsLimitedT], by simp [attrDimsLoop],
    fun _ => by simp [hasVlenLoop]⟩

theorem seq_elem {a : Bool} {t : WTy} {x : TVal} (h : Item a true (.vlenSeq t) x) :
    (∃ e ys, x = .slice e ys) ∧ IsLeaf x ∧ x.ty = .slice (goTy t.dt []) ∧
      (∀ h, collectStringsT h x = collectFieldStringT h x) ∧ getDimsLimitedT x 0 = [] ∧ hasVlenLoop x 0 = true := by
  cases h
  exact ⟨⟨_, _, rfl⟩, trivial, rfl, fun h => by simp [collectStringsT, collectFieldStringT], by simp [getDimsLimitedT],
    by simp [hasVlenLoop]⟩

theorem seq_strip {t : WTy} {xs : List TVal} (hx : ∀ x ∈ xs, Item false false t x) (he : xs = [] → ∃ k, t = .num k) :
    (stripKinds (goTy t.dt [])).1 ≠ .str := by
  have hnum : ∀ k : Kind, (stripKinds (goTy (WTy.num k).dt [])).1 ≠ .str := by
    intro k
    simp [goTy_num, sliceTy, stripKinds]
  cases xs with
  | nil =>
    obtain ⟨k, rfl⟩ := he rfl
    exact hnum k
  | cons x xs =>
    have hx0 := hx x (by simp)
    cases hx0 with
    | num k bits => exact hnum k
    | blob bs => simp [goTy, sliceTy, WTy.dt, stripKinds]
    | enum => simp [goTy, WTy.dt, stripKinds]
    | compound => simp [goTy, sliceTy, WTy.dt, stripKinds]

/-! ### Arrays -/

theorem trips_pairs {heap : HeapFn} {t : WTy} {xs : List TVal} {bs : List Bytes} {ts : List WTy}
    (h : Trips (OneShown heap) ts xs bs) (ht : ∀ u ∈ ts, u = t) :
    Pairs (fun x b => Shown heap t.dt [] b x) xs bs ∧ bs.flatten.length = xs.length * t.fieldSize := by
  induction h with
  | nil => exact ⟨.nil, by simp⟩
  | @cons u x b ts xs bs hr _ ih =>
    obtain rfl : u = t := ht u (by simp)
    obtain ⟨h1, h2⟩ := ih fun y hy => ht y (by simp [hy])
    refine ⟨.cons hr.shown h1, ?_⟩
    simp only [List.flatten_cons, List.length_append, hr.len, h2, List.length_cons, Nat.add_mul]
    omega

/-- An array goes to the heap and to the file. -/
theorem arr_stored {a b : Bool} {t : WTy} {base : TTy} {dims : List Nat} {v : TVal}
    (hleaf : ∀ x, Item a b t x → IsLeaf x) (hby : ByElement t.dt) (hgo : ∀ ds, goTy t.dt ds = sliceTy base ds)
    (hz : (∃ n e, t.dt = .vlen n false e) → ∀ d ∈ dims, d ≠ 0) (hv : ArrT base (Item a b t) dims v) (h : Heap) :
    ∃ h2 is, collectFieldVlensT false h (leavesT dims.length v) = .ok (h2, is) ∧ h.Le h2 ∧ h2.indices = h.indices ∧
      (b = false → h2 = h ∧ is = []) ∧
      ∀ H heap, h2.Le H → HeapHas heap H → (∀ s ∈ textsL (leavesT dims.length v), H.HasStr s) →
        ∃ bs, bs.length = prod dims * t.fieldSize ∧ Shown heap t.dt dims bs v ∧
          ∀ fl rest, writeValT false (some H) fl v dims.length (is ++ rest) = .ok (bs, rest) := by
  have hsat := leavesT_sat hv
  have hlen := leavesT_length hv
  obtain ⟨h2, is, e1, e2, e3, e4, e5⟩ := stored_fields (b := b) (ts := List.replicate (leavesT dims.length v).length t)
    (vs := leavesT dims.length v) (by simp) (by
      intro i u x h1 h2 h
      have hu : u = t := List.eq_of_mem_replicate (List.mem_of_getElem? h1)
      subst hu
      exact item_stored (hsat x (List.mem_of_getElem? h2)) h) h
  refine ⟨h2, is, e1, e2, e3, e4, fun H heap hle hh hs => ?_⟩
  obtain ⟨bs, g1, g2⟩ := e5 H heap hle hh hs
  obtain ⟨g3, g4⟩ := trips_pairs g1 fun u hu => List.eq_of_mem_replicate hu
  refine ⟨bs.flatten, by rw [g4, hlen], shown_arr hby hgo hz hv g3, fun fl rest => ?_⟩
  rw [writeValT_leaves false _ fl hv, writeValsT_fields _ _ _ _ fun x hx => hleaf x (hsat x hx), g2]

/-- The strings of an array go to the heap. -/
theorem arr_strs {a b : Bool} {t : WTy} {base : TTy} {dims : List Nat} {v : TVal} (hv : ArrT base (Item a b t) dims v)
    (h : Heap) (hw : h.StrWF) :
    (collectFieldStringsT h (leavesT dims.length v)).StrWF ∧ h.Le (collectFieldStringsT h (leavesT dims.length v)) ∧
      ∀ s ∈ textsL (leavesT dims.length v), (collectFieldStringsT h (leavesT dims.length v)).HasStr s := by
  have hsat := leavesT_sat hv
  refine fields_strs (ts := List.replicate (leavesT dims.length v).length t) (by simp) ?_ h hw
  intro i u x h1 h2 h hw
  have hu : u = t := List.eq_of_mem_replicate (List.mem_of_getElem? h1)
  subst hu
  exact item_strs (hsat x (List.mem_of_getElem? h2)) h hw

theorem arr_dt {a b : Bool} {t : WTy} {base : TTy} {dims : List Nat} {v : TVal}
    (hleaf : ∀ x, Item a b t x → IsLeaf x ∧ x.ty = base) (hpos : ∀ d ∈ dims, d ≠ 0) (hv : ArrT base (Item a b t) dims v) :
    datatypeOfT v dims.length = .ok t := by
  obtain ⟨x, h1, h2, h3⟩ := navigateT_arr hpos hv
  have hty := arrT_ty (fun x hx => (hleaf x hx).2) hv
  have hne : ∀ a b c, v ≠ .enum a b c := by
    rintro a b c rfl
    cases dims with
    | nil => exact (hleaf _ hv).1
    | cons d ds => obtain ⟨xs, e, -⟩ := hv; cases e
  have hw := weightT_pos v
  obtain ⟨f, hf⟩ : ∃ f, weightT v = f + 1 := ⟨weightT v - 1, by omega⟩
  rw [datatypeOfT, hf, dtT_nav f v x dims.length dims.length hne (hleaf x h1).1
    (by rw [hty, stripTyT_sliceTy, (hleaf x h1).2]) h2]
  rcases item_dt h1 with ⟨s, rfl, -⟩ | ⟨-, h4⟩
  · exact absurd (hleaf _ h1).1 (by simp [IsLeaf])
  · exact h4 _ (by omega)

theorem record_by {t : WTy} (ht : t.Record) : ByElement t.dt ∧ (∀ ds, goTy t.dt ds = sliceTy (goTy t.dt []) ds) ∧
    (¬ ∃ n e, t.dt = .vlen n false e) ∧ (stripKinds (goTy t.dt [])).1 ≠ .str ∧ supportedTyT (goTy t.dt []) = true := by
  cases t with
  | compound ns ts =>
    refine ⟨by simp [WTy.dt, ByElement], fun ds => by simp [goTy, WTy.dt, sliceTy], ?_, by simp [goTy, WTy.dt, sliceTy, stripKinds],
      by simp [goTy, WTy.dt, sliceTy, supportedTyT]⟩
    rintro ⟨n, e, h⟩
    simp [WTy.dt] at h
  | «opaque» n =>
    refine ⟨by simp [WTy.dt, ByElement], fun ds => by simp [goTy, WTy.dt, sliceTy], ?_, by simp [goTy, WTy.dt, sliceTy, stripKinds],
      by simp [goTy, WTy.dt, sliceTy, supportedTyT]⟩
    rintro ⟨n, e, h⟩
    simp [WTy.dt] at h
  | _ => cases ht

theorem firstScalar_arr {k : Kind} {leaf : TVal → Prop} (hl : ∀ x, leaf x → ∃ bits, x = .num k bits) {dims : List Nat}
    {v : TVal} (hv : ArrT (.num k) leaf dims v) : ∃ bits, firstScalar v = .num k bits := by
  induction dims generalizing v with
  | nil =>
    obtain ⟨bits, rfl⟩ := hl v hv
    exact ⟨bits, rfl⟩
  | cons d ds ih =>
    obtain ⟨xs, rfl, -, hx⟩ := hv
    cases xs with
    | nil => exact ⟨0, by simp [firstScalar, firstScalarHead, stripKinds_sliceTy, stripKinds, zeroValT]⟩
    | cons x xs => simpa [firstScalar, firstScalarHead] using ih (hx x (by simp))

theorem enum_dt {k : Kind} {names : List Bytes} {vals dims : List Nat} {v : TVal} (hf : k.isFloat = false) (n : Nat)
    (hv : ArrT (.num k) (Item false false (.num k)) dims v) :
    datatypeOfT (.enum v names (vals.map (.num k))) n = .ok (.enum k names vals) := by
  obtain ⟨bits, h⟩ := firstScalar_arr (fun x hx => by cases hx; exact ⟨_, rfl⟩) hv
  simp [datatypeOfT, weightT, dtT, enumTy, h, hf, memberBits_map]

theorem enum_shown {heap : HeapFn} {k : Kind} {names : List Bytes} {vals dims : List Nat} {v : TVal} {b : Bytes}
    (hf : k.isFloat = false) (h : Shown heap (WTy.num k).dt dims b v) :
    Shown heap (WTy.enum k names vals).dt dims b (.enum v names (vals.map (.num k))) := by
  rw [← storedNum_num] at h
  have := Shown.enum (heap := heap) false k names vals dims b v hf h
  have e : storedNum false k = .fixed k.size k.signed false := by rw [storedNum_num, WTy.dt, hf]; rfl
  rw [e] at this
  exact this

/-! ### Variables and attributes -/

/-- The strings and the sequences of a value are in the heap, and its bytes can be written: `H` is the
heap of the file, `is` are the indices of the sequences. -/
structure Shows (w : WTy) (dims : List Nat) (v : TVal) (H : Heap) (heap : HeapFn) (is : List Nat) (b : Bytes) : Prop where
  len : b.length = prod dims * w.fieldSize
  shown : Shown heap w.dt dims b v
  write : ∀ fl, writeValT false (some H) fl v dims.length is = .ok (b, [])

theorem goTy_seq (t : WTy) (ds : List Nat) : goTy (WTy.vlenSeq t).dt ds = sliceTy (.slice (goTy t.dt [])) ds := by
  rw [WTy.dt, goTy]

/-- A variable. -/
theorem var_user {w : WTy} {dims : List Nat} {v : TVal} (hv : VarValue w dims v) :
    (supportedT v = true ∧ datatypeOfT v dims.length = .ok w ∧ getDimsLimitedT v dims.length = dims) ∧
    ∀ h0 : Heap, h0.StrWF → (collectStringsT h0 v).StrWF ∧ h0.Le (collectStringsT h0 v) ∧
    ∀ h, ∃ h2 is, collectVarT false h v dims.length = .ok (h2, is) ∧ h.Le h2 ∧ h2.indices = h.indices ∧
      ∀ H heap, h2.Le H → (collectStringsT h0 v).Le H → HeapHas heap H → ∃ b, Shows w dims v H heap is b := by
  cases hv with
  | records t dims v ht hv hpos =>
    obtain ⟨b1, b2, b3, b4, b5⟩ := record_by ht
    have hel := fun x (hx : Item true false w x) => record_elem ht hx
    refine ⟨⟨supportedT_arr (fun x hx => item_supported hx) b5 hv, arr_dt (fun x hx => ⟨(hel x hx).leaf, (hel x hx).ty⟩) hpos hv,
      getDimsLimitedT_arr (fun x hx => (hel x hx).dims) (fun d hd => hpos d ((List.dropLast_sublist dims).subset hd)) hv⟩, ?_⟩
    intro h0 hw
    rw [collectStringsT_leaves b4 (fun x hx => (hel x hx).strs) hv]
    obtain ⟨s1, s2, s3⟩ := arr_strs hv h0 hw
    refine ⟨s1, s2, fun h => ?_⟩
    obtain ⟨h2, is, -, -, -, e4, e5⟩ := arr_stored (fun x hx => (hel x hx).leaf) b1 b2 (fun h => absurd h b3) hv h
    obtain ⟨rfl, rfl⟩ := e4 rfl
    refine ⟨h2, [], ?_, Heap.Le.refl _, rfl, fun H heap hle hs hh => ?_⟩
    · have : hasVlenT v dims.length = false := by
        have := hasVlenLoop_arr (fun x hx => (hel x hx).has rfl) hpos hv
        cases v with
        | enum a b c =>
          exfalso
          cases dims with
          | nil => exact (hel _ hv).leaf
          | cons d ds => obtain ⟨xs, e, -⟩ := hv; cases e
        | _ => simpa only [hasVlenT] using this
      simp [collectVarT, this]
    · obtain ⟨b, g1, g2, g3⟩ := e5 H heap hle hh fun s' hs' => (s3 s' hs').le hs
      exact ⟨b, g1, g2, fun fl => by simpa using g3 fl []⟩
  | seqs t dims v hv hpos =>
    have hel := fun x (hx : Item false true (.vlenSeq t) x) => seq_elem hx
    have hstrip : (stripKinds (.slice (goTy t.dt []))).1 ≠ .str := by
      obtain ⟨x, hx, -, -⟩ := navigateT_arr hpos hv
      cases hx with
      | seq t xs hx hp he hl => simpa [stripKinds] using seq_strip hx he
    have hsup : supportedT v = true := by
      have hsl : ∀ (dims : List Nat) (v : TVal), (∀ d ∈ dims, d ≠ 0) → ArrT (.slice (goTy t.dt [])) (Item false true (.vlenSeq t)) dims v →
          supportedT v = true := by
        intro dims
        induction dims with
        | nil => intro v _ hv; exact item_supported hv
        | cons d ds ih =>
          intro v hpos hv
          obtain ⟨xs, rfl, hd, hx⟩ := hv
          cases xs with
          | nil => exact absurd hd.symm (hpos d (by simp))
          | cons x xs => simpa [supportedT, supportedHeadT] using ih x (fun y hy => hpos y (by simp [hy])) (hx x (by simp))
      exact hsl dims v hpos hv
    refine ⟨⟨hsup, arr_dt (fun x hx => ⟨(hel x hx).2.1, (hel x hx).2.2.1⟩) hpos hv,
      getDimsLimitedT_arr (fun x hx => (hel x hx).2.2.2.2.1) (fun d hd => hpos d ((List.dropLast_sublist dims).subset hd)) hv⟩, ?_⟩
    intro h0 hw
    rw [collectStringsT_leaves hstrip (fun x hx => (hel x hx).2.2.2.1) hv]
    obtain ⟨s1, s2, s3⟩ := arr_strs hv h0 hw
    refine ⟨s1, s2, fun h => ?_⟩
    obtain ⟨h2, is, e1, e2, e3, -, e5⟩ := arr_stored (fun x hx => (hel x hx).2.1)
      (show ByElement (WTy.vlenSeq t).dt by simp [WTy.dt, ByElement]) (goTy_seq t) (fun _ => hpos) hv h
    refine ⟨h2, is, ?_, e2, e3, fun H heap hle hs hh => ?_⟩
    · have : hasVlenT v dims.length = true := by
        have := hasVlenLoop_arr (fun x hx => (hel x hx).2.2.2.2.2) hpos hv
        cases v with
        | enum a b c =>
          exfalso
          cases dims with
          | nil => obtain ⟨e, ys, h⟩ := (hel _ hv).1; cases h
          | cons d ds => obtain ⟨xs, e, -⟩ := hv; cases e
        | _ => simpa only [hasVlenT] using this
      simp only [collectVarT, this, ↓reduceIte]
      rw [collectVarVlenT_leaves (fun x hx => (hel x hx).1) hv, e1]
    · obtain ⟨b, g1, g2, g3⟩ := e5 H heap hle hh fun s' hs' => (s3 s' hs').le hs
      exact ⟨b, g1, g2, fun fl => by simpa using g3 fl []⟩
  | enum k names vals dims v hf hv hpos =>
    have hel := fun x (hx : Item false false (.num k) x) => num_elem hx
    refine ⟨⟨by simpa [supportedT] using supportedT_arr (fun x hx => item_supported hx) (by simp [supportedTyT]) hv,
      enum_dt hf _ hv, by simpa [getDimsLimitedT] using getDimsLimitedT_arr (fun x hx => (hel x hx).dims) hpos hv⟩, ?_⟩
    intro h0 hw
    simp only [collectStringsT]
    rw [collectStringsT_leaves (by simp [stripKinds]) (fun x hx => (hel x hx).strs) hv]
    obtain ⟨s1, s2, s3⟩ := arr_strs hv h0 hw
    refine ⟨s1, s2, fun h => ?_⟩
    obtain ⟨h2, is, -, -, -, e4, e5⟩ := arr_stored (fun x hx => (hel x hx).leaf) (byElement_num k) (goTy_num k)
      (fun h => absurd h (num_not_vlen k)) hv h
    obtain ⟨rfl, rfl⟩ := e4 rfl
    refine ⟨h2, [], ?_, Heap.Le.refl _, rfl, fun H heap hle hs hh => ?_⟩
    · have h1 := hasVlen_num (fun x hx => (hel x hx).has rfl) hpos hv
      have : hasVlenT (.enum v names (vals.map (.num k))) dims.length = false := by
        cases v with
        | enum a b c =>
          exfalso
          cases dims with
          | nil => exact (hel _ hv).leaf
          | cons d ds => obtain ⟨xs, e, -⟩ := hv; cases e
        | _ => simpa only [hasVlenT] using h1
      simp [collectVarT, this]
    · obtain ⟨b, g1, g2, g3⟩ := e5 H heap hle hh fun s' hs' => (s3 s' hs').le hs
      exact ⟨b, by simpa [WTy.fieldSize] using g1, enum_shown hf g2, fun fl => by simpa [writeValT] using g3 fl []⟩

/-- Sequences: the first one says what the elements are. -/
theorem seqs_facts {t : WTy} {dims : List Nat} {v : TVal} (hpos : ∀ d ∈ dims, d ≠ 0)
    (hv : ArrT (.slice (goTy t.dt [])) (Item false true (.vlenSeq t)) dims v) :
    (stripKinds (.slice (goTy t.dt []))).1 ≠ .str ∧ supportedT v = true := by
  constructor
  · obtain ⟨x, hx, -, -⟩ := navigateT_arr hpos hv
    cases hx with
    | seq t xs hx hp he hl => simpa [stripKinds] using seq_strip hx he
  · induction dims generalizing v with
    | nil => exact item_supported hv
    | cons d ds ih =>
      obtain ⟨xs, rfl, hd, hx⟩ := hv
      cases xs with
      | nil => exact absurd hd.symm (hpos d (by simp))
      | cons x xs => simpa [supportedT, supportedHeadT] using ih (fun y hy => hpos y (by simp [hy])) (hx x (by simp))

theorem attrDimsT_loop {v : TVal} (h : ∀ a b c, v ≠ .enum a b c) : attrDimsT v = attrDimsLoop v := by
  cases v with
  | enum a b c => exact absurd rfl (h a b c)
  | _ => simp only [attrDimsT]

theorem arr_not_enum {base : TTy} {leaf : TVal → Prop} (hl : ∀ x, leaf x → IsLeaf x) {dims : List Nat} {v : TVal}
    (hv : ArrT base leaf dims v) : ∀ a b c, v ≠ .enum a b c := by
  rintro a b c rfl
  cases dims with
  | nil => exact hl _ hv
  | cons d ds => obtain ⟨xs, e, -⟩ := hv; cases e

/-- An attribute. -/
theorem attr_user {w : WTy} {dims : List Nat} {v : TVal} (hv : AttrValue w dims v) :
    (supportedT v = true ∧ datatypeOfT v dims.length = .ok w ∧ attrDimsT v = dims) ∧
    ∀ h0 : Heap, h0.StrWF → (collectStringsT h0 v).StrWF ∧ h0.Le (collectStringsT h0 v) ∧
    ∀ h, ∃ h2 is, collectAttrVlenT false h v = .ok (h2, is) ∧ h.Le h2 ∧ h2.indices = h.indices ∧
      ∀ H heap, h2.Le H → (collectStringsT h0 v).Le H → HeapHas heap H → ∃ b, Shows w dims v H heap is b := by
  cases hv with
  | records t dims v ht hv hpos =>
    obtain ⟨b1, b2, b3, b4, b5⟩ := record_by ht
    have hel := fun x (hx : Item true true w x) => record_elem ht hx
    have hd := attrDimsLoop_arr (fun x hx => (hel x hx).row) (fun x hx => (hel x hx).attrDims)
      (fun d hd => hpos d ((List.dropLast_sublist dims).subset hd)) hv
    refine ⟨⟨supportedT_arr (fun x hx => item_supported hx) b5 hv, arr_dt (fun x hx => ⟨(hel x hx).leaf, (hel x hx).ty⟩) hpos hv,
      by rw [attrDimsT_loop (arr_not_enum (fun x hx => (hel x hx).leaf) hv), hd]⟩, ?_⟩
    intro h0 hw
    rw [collectStringsT_leaves b4 (fun x hx => (hel x hx).strs) hv]
    obtain ⟨s1, s2, s3⟩ := arr_strs hv h0 hw
    refine ⟨s1, s2, fun h => ?_⟩
    obtain ⟨h2, is, e1, e2, e3, -, e5⟩ := arr_stored (fun x hx => (hel x hx).leaf) b1 b2 (fun h => absurd h b3) hv h
    refine ⟨h2, is, ?_, e2, e3, fun H heap hle hs hh => ?_⟩
    · rw [collectAttrVlenT_leaves (fun x hx => (hel x hx).row) (fun x hx => (hel x hx).vlen) hv, e1]
    · obtain ⟨b, g1, g2, g3⟩ := e5 H heap hle hh fun s' hs' => (s3 s' hs').le hs
      exact ⟨b, g1, g2, fun fl => by simpa using g3 fl []⟩
  | seqs t dims v hv hpos hu =>
    have hel := fun x (hx : Item false true (.vlenSeq t) x) => seq_elem hx
    obtain ⟨hstrip, hsup⟩ := seqs_facts hpos hv
    have hun := fun h => collectAttrVlenT_uneven (fun x hx => (hel x hx).1) rfl hv hu h
    refine ⟨⟨hsup, arr_dt (fun x hx => ⟨(hel x hx).2.1, (hel x hx).2.2.1⟩) hpos hv,
      by rw [attrDimsT_loop (arr_not_enum (fun x hx => (hel x hx).2.1) hv), (hun ⟨0, [], []⟩).2 hpos]⟩, ?_⟩
    intro h0 hw
    rw [collectStringsT_leaves hstrip (fun x hx => (hel x hx).2.2.2.1) hv]
    obtain ⟨s1, s2, s3⟩ := arr_strs hv h0 hw
    refine ⟨s1, s2, fun h => ?_⟩
    obtain ⟨h2, is, e1, e2, e3, -, e5⟩ := arr_stored (fun x hx => (hel x hx).2.1)
      (show ByElement (WTy.vlenSeq t).dt by simp [WTy.dt, ByElement]) (goTy_seq t) (fun _ => hpos) hv h
    refine ⟨h2, is, by rw [(hun h).1, e1], e2, e3, fun H heap hle hs hh => ?_⟩
    obtain ⟨b, g1, g2, g3⟩ := e5 H heap hle hh fun s' hs' => (s3 s' hs').le hs
    exact ⟨b, g1, g2, fun fl => by simpa using g3 fl []⟩
  | enum k names vals dims v hf hv hpos =>
    have hel := fun x (hx : Item false false (.num k) x) => num_elem hx
    have hd := attrDimsLoop_arr (fun x hx => (hel x hx).row) (fun x hx => (hel x hx).attrDims) hpos hv
    refine ⟨⟨by simpa [supportedT] using supportedT_arr (fun x hx => item_supported hx) (by simp [supportedTyT]) hv,
      enum_dt hf _ hv, by rw [attrDimsT, attrDimsT_loop (arr_not_enum (fun x hx => (hel x hx).leaf) hv), hd]⟩, ?_⟩
    intro h0 hw
    simp only [collectStringsT]
    rw [collectStringsT_leaves (by simp [stripKinds]) (fun x hx => (hel x hx).strs) hv]
    obtain ⟨s1, s2, s3⟩ := arr_strs hv h0 hw
    refine ⟨s1, s2, fun h => ?_⟩
    obtain ⟨h2, is, e1, e2, e3, -, e5⟩ := arr_stored (fun x hx => (hel x hx).leaf) (byElement_num k) (goTy_num k)
      (fun h => absurd h (num_not_vlen k)) hv h
    refine ⟨h2, is, ?_, e2, e3, fun H heap hle hs hh => ?_⟩
    · rw [collectAttrVlenT, collectAttrVlenT_leaves (fun x hx => (hel x hx).row) (fun x hx => (hel x hx).vlen) hv, e1]
    · obtain ⟨b, g1, g2, g3⟩ := e5 H heap hle hh fun s' hs' => (s3 s' hs').le hs
      exact ⟨b, by simpa [WTy.fieldSize] using g1, enum_shown hf g2, fun fl => by simpa [writeValT] using g3 fl []⟩

end Verif.H5
