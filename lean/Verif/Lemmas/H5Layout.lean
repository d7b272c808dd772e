import Verif.Lemmas.H5Chunk
/-!
From chunks to the order of the elements.
-/
namespace Verif.H5

theorem range_mul_flatMap {β : Type} (g l : Nat) (f : Nat → List β) :
    (List.range (g * l)).flatMap f = (List.range g).flatMap fun i => (List.range l).flatMap fun j => f (i * l + j) := by
  induction g with
  | zero => simp
  | succ g ih =>
    rw [Nat.add_mul, Nat.one_mul, List.range_add, List.flatMap_append, ih, List.range_succ, List.flatMap_append,
      List.flatMap_map]
    simp

theorem flatMap_congr_mem {α β : Type} {l : List α} {f g : α → List β} (h : ∀ x ∈ l, f x = g x) :
    l.flatMap f = l.flatMap g := by
  induction l with
  | nil => rfl
  | cons x xs ih =>
    rw [List.flatMap_cons, List.flatMap_cons, h x List.mem_cons_self, ih fun y hy => h y (List.mem_cons_of_mem _ hy)]

theorem indices_singleton (l : Nat) : indices [l] = (List.range l).map fun j => [j] := by
  simp only [indices, List.map_cons, List.map_nil]
  rw [← List.map_eq_flatMap]

theorem rowMajor_cons (d : Nat) (ds : List Nat) (f : List Nat → Bytes) :
    rowMajor (d :: ds) f = (List.range d).flatMap fun i => rowMajor ds fun is => f (i :: is) := by
  simp only [rowMajor, indices, List.flatMap_assoc, List.flatMap_map]

theorem chunkData_cons (l : Nat) (ls : List Nat) (cell : List Nat → Bytes) (i : Nat) (c : List Nat) :
    chunkData (l :: ls) cell (i :: c) =
      (List.range l).flatMap fun j => chunkData ls (fun is => cell ((i * l + j) :: is)) c := by
  simp only [chunkData, indices, List.flatMap_assoc, List.flatMap_map]
  rfl

theorem ceil_mul {d l : Nat} (hl : 0 < l) (h : d % l = 0) : (d + l - 1) / l * l = d := by
  obtain ⟨k, rfl⟩ := Nat.dvd_of_mod_eq_zero h
  have : l * k + l - 1 = l - 1 + l * k := by omega
  rw [this, Nat.add_mul_div_left _ _ hl, Nat.div_eq_of_lt (by omega), Nat.zero_add, Nat.mul_comm]

/-- Chunks of length one along all dimensions but the last are in the order of the elements. -/
theorem chunks_inline : ∀ {dims layout : List Nat} (cell : List Nat → Bytes), layout.length = dims.length → dims ≠ [] →
    (∀ l ∈ layout, 0 < l) → ((dims.zip layout).all fun p => p.1 % p.2 == 0) = true →
    (layout.dropLast.all (· == 1)) = true →
    (indices (gridShape dims layout)).flatMap (chunkData layout cell) = rowMajor dims cell := by
  intro dims
  induction dims with
  | nil => intro layout cell _ h; exact absurd rfl h
  | cons d ds ih =>
    intro layout cell h1 _ h3 h4 h5
    cases layout with
    | nil => simp at h1
    | cons l ls =>
      have hl := h3 l List.mem_cons_self
      simp only [List.zip_cons_cons, List.all_cons, Bool.and_eq_true, beq_iff_eq] at h4
      have hg : gridShape (d :: ds) (l :: ls) = (d + l - 1) / l :: gridShape ds ls := rfl
      rw [hg]
      have hexp : (indices ((d + l - 1) / l :: gridShape ds ls)).flatMap (chunkData (l :: ls) cell) =
          (List.range ((d + l - 1) / l)).flatMap fun i => (indices (gridShape ds ls)).flatMap fun c =>
            chunkData (l :: ls) cell (i :: c) := by
        simp only [indices, List.flatMap_assoc, List.flatMap_map]
      rw [hexp, rowMajor_cons]
      simp only [chunkData_cons]
      cases ds with
      | nil =>
        cases ls with
        | nil =>
          have := range_mul_flatMap ((d + l - 1) / l) l (fun i => rowMajor [] fun is => cell (i :: is))
          rw [ceil_mul hl h4.1] at this
          rw [this]
          apply flatMap_congr_mem
          intro i _
          simp [gridShape, indices, chunkData, rowMajor, addIx, mulIx]
        | cons _ _ => simp at h1
      | cons e es =>
        cases ls with
        | nil => simp at h1
        | cons m ms =>
          have hl1 : l = 1 := by
            simp only [List.dropLast_cons_cons, List.all_cons, Bool.and_eq_true, beq_iff_eq] at h5
            exact h5.1
          subst hl1
          simp only [Nat.add_sub_cancel, Nat.div_one, Nat.mul_one, List.range_one, List.flatMap_singleton, Nat.add_zero]
          apply flatMap_congr_mem
          intro i _
          exact ih (layout := m :: ms) (fun is => cell (i :: is)) (by simpa using h1) (by simp)
            (fun x hx => h3 x (List.mem_cons_of_mem _ hx)) h4.2
            (by simp only [List.dropLast_cons_cons, List.all_cons, Bool.and_eq_true] at h5; exact h5.2)

/-! ### Copying lines -/

theorem blit_length {buf src : Bytes} {off : Nat} (h : off + src.length ≤ buf.length) :
    (blit buf off src).length = buf.length := by
  simp only [blit, List.length_append, List.length_take, List.length_drop]
  omega

theorem blit_get {buf src : Bytes} {off : Nat} (h : off + src.length ≤ buf.length) (p : Nat) :
    (blit buf off src)[p]? = if off ≤ p ∧ p < off + src.length then src[p - off]? else buf[p]? := by
  unfold blit
  by_cases h1 : p < off
  · rw [if_neg (by omega), List.append_assoc, List.getElem?_append_left (by rw [List.length_take]; omega),
      List.getElem?_take_of_lt h1]
  · by_cases h2 : p < off + src.length
    · rw [if_pos ⟨by omega, h2⟩, List.getElem?_append_left (by rw [List.length_append, List.length_take]; omega),
        List.getElem?_append_right (by rw [List.length_take]; omega), List.length_take, Nat.min_eq_left (by omega)]
    · rw [if_neg (by omega), List.getElem?_append_right (by rw [List.length_append, List.length_take]; omega),
        List.getElem?_drop, List.length_append, List.length_take, Nat.min_eq_left (by omega)]
      congr 1
      omega

/-- Copies that all agree with `T` and cover it give `T`. -/
theorem foldl_blit (T : Bytes) : ∀ (W : List (Nat × Bytes)) (buf : Bytes), buf.length = T.length →
    (∀ w ∈ W, w.1 + w.2.length ≤ T.length ∧ w.2 = (T.drop w.1).take w.2.length) →
    (W.foldl (fun b w => blit b w.1 w.2) buf).length = T.length ∧
    ∀ p, p < T.length → ((∃ w ∈ W, w.1 ≤ p ∧ p < w.1 + w.2.length) ∨ buf[p]? = T[p]?) →
      (W.foldl (fun b w => blit b w.1 w.2) buf)[p]? = T[p]? := by
  intro W
  induction W with
  | nil =>
    intro buf h _
    refine ⟨h, fun p _ hp => ?_⟩
    rcases hp with ⟨w, hw, _⟩ | hp
    · simp at hw
    · exact hp
  | cons w ws ih =>
    intro buf h hw
    obtain ⟨hw1, hw2⟩ := hw w List.mem_cons_self
    have hl : (blit buf w.1 w.2).length = T.length := by rw [blit_length (by omega), h]
    obtain ⟨h1, h2⟩ := ih (blit buf w.1 w.2) hl fun x hx => hw x (List.mem_cons_of_mem _ hx)
    rw [List.foldl_cons]
    refine ⟨h1, fun p hp hc => h2 p hp ?_⟩
    by_cases hin : w.1 ≤ p ∧ p < w.1 + w.2.length
    · right
      rw [blit_get (by omega), if_pos hin, hw2, List.getElem?_take_of_lt (by omega), List.getElem?_drop]
      congr 1
      omega
    · rcases hc with ⟨x, hx, hx1⟩ | hc
      · rcases List.mem_cons.mp hx with rfl | hx
        · exact absurd hx1 hin
        · exact .inl ⟨x, hx, hx1⟩
      · right
        rw [blit_get (by omega), if_neg hin]
        exact hc

theorem foldl_blit_eq (T : Bytes) (W : List (Nat × Bytes)) (buf : Bytes) (h : buf.length = T.length)
    (hw : ∀ w ∈ W, w.1 + w.2.length ≤ T.length ∧ w.2 = (T.drop w.1).take w.2.length)
    (hc : ∀ p, p < T.length → ∃ w ∈ W, w.1 ≤ p ∧ p < w.1 + w.2.length) :
    W.foldl (fun b w => blit b w.1 w.2) buf = T := by
  obtain ⟨h1, h2⟩ := foldl_blit T W buf h hw
  apply List.ext_getElem?
  intro p
  by_cases hp : p < T.length
  · exact h2 p hp (.inl (hc p hp))
  · rw [List.getElem?_eq_none (by omega), List.getElem?_eq_none (by omega)]

/-! ### Digits -/

theorem digits_aux (radices : List Nat) (n : Nat) :
    (radices.foldr (fun r (acc : List Nat × Nat) => (acc.2 % r :: acc.1, acc.2 / r)) ([], n)).2 = n / prod radices := by
  induction radices with
  | nil => simp [prod]
  | cons r rs ih => simp only [List.foldr_cons, ih, prod]; rw [Nat.div_div_eq_div_mul, Nat.mul_comm]

theorem digits_cons (r : Nat) (rs : List Nat) (n : Nat) : digits (r :: rs) n = n / prod rs % r :: digits rs n := by
  simp only [digits, List.foldr_cons, digits_aux]

theorem digits_spec {radices : List Nat} (h : ∀ r ∈ radices, 0 < r) (n : Nat) :
    InRange radices (digits radices n) ∧ rowIndex radices (digits radices n) = n % prod radices := by
  induction radices with
  | nil => exact ⟨trivial, by simp [rowIndex, prod, Nat.mod_one]⟩
  | cons r rs ih =>
    obtain ⟨h1, h2⟩ := ih fun x hx => h x (List.mem_cons_of_mem _ hx)
    rw [digits_cons]
    refine ⟨⟨Nat.mod_lt _ (h r List.mem_cons_self), h1⟩, ?_⟩
    rw [rowIndex, h2, prod, Nat.mul_comm r, Nat.mod_mul, Nat.add_comm, Nat.mul_comm]

theorem digits_row {radices idx : List Nat} (h : InRange radices idx) : digits radices (rowIndex radices idx) = idx := by
  have hpos : ∀ r ∈ radices, 0 < r := by
    induction radices generalizing idx with
    | nil => simp
    | cons r rs ih =>
      cases idx with
      | nil => simp [InRange] at h
      | cons i is =>
        simp only [InRange] at h
        intro x hx
        rcases List.mem_cons.mp hx with rfl | hx
        · omega
        · exact ih h.2 x hx
  obtain ⟨h1, h2⟩ := digits_spec hpos (rowIndex radices idx)
  exact rowIndex_inj h1 h (by rw [h2, Nat.mod_eq_of_lt (rowIndex_lt h)])

theorem map_digits (ds : List Nat) : (List.range (prod ds)).map (digits ds) = indices ds := by
  apply List.ext_getElem?
  intro k
  by_cases hk : k < prod ds
  · obtain ⟨idx, h1, rfl⟩ := exists_index hk
    rw [List.getElem?_map, List.getElem?_range hk, indices_get h1]
    simp only [Option.map_some, digits_row h1]
  · rw [List.getElem?_eq_none (by simp; omega), List.getElem?_eq_none (by rw [indices_length]; omega)]

theorem undigits_eq : ∀ (ds rs : List Nat), undigits ds rs = rowIndex rs ds := by
  intro ds
  induction ds with
  | nil => intro rs; cases rs <;> rfl
  | cons d ds ih =>
    intro rs
    cases rs with
    | nil => rfl
    | cons r rs => simp only [undigits, rowIndex, foldl_mul, Nat.one_mul, ih]

theorem indices_append (ds : List Nat) (m : Nat) :
    indices (ds ++ [m]) = (indices ds).flatMap fun δ => (List.range m).map fun j => δ ++ [j] := by
  induction ds with
  | nil => rw [List.nil_append, indices_singleton]; simp [indices]
  | cons d ds ih =>
    simp only [List.cons_append, indices, ih, List.flatMap_assoc, List.map_flatMap, List.flatMap_map, List.map_map]
    rfl

theorem addIx_append {a b : List Nat} (h : a.length = b.length) (x y : Nat) :
    addIx (a ++ [x]) (b ++ [y]) = addIx a b ++ [x + y] := by
  simp only [addIx, List.zipWith_append h, List.zipWith_cons_cons, List.zipWith_nil_right]

theorem mulIx_append {a b : List Nat} (h : a.length = b.length) (x y : Nat) :
    mulIx (a ++ [x]) (b ++ [y]) = mulIx a b ++ [x * y] := by
  simp only [mulIx, List.zipWith_append h, List.zipWith_cons_cons, List.zipWith_nil_right]

/-! ### A stripe -/

/-- The part of a chunk that is inside of the array. -/
def validShape (starts lay outer : List Nat) : List Nat :=
  (starts.zip (lay.zip outer)).map fun p => min (p.1 + p.2.1) p.2.2 - p.1

theorem valid_iff : ∀ {starts lay outer δ : List Nat}, starts.length = outer.length → lay.length = outer.length →
    InRange lay δ →
    (((starts.zip (δ.zip outer)).all fun p => decide (p.1 + p.2.1 < p.2.2)) = true ↔
      InRange (validShape starts lay outer) δ) := by
  intro starts
  induction starts with
  | nil =>
    intro lay outer δ h1 h2 h3
    cases outer with
    | nil =>
      cases lay with
      | nil => cases δ <;> simp_all [InRange, validShape]
      | cons _ _ => simp at h2
    | cons _ _ => simp at h1
  | cons s ss ih =>
    intro lay outer δ h1 h2 h3
    cases outer with
    | nil => simp at h1
    | cons o os =>
      cases lay with
      | nil => simp at h2
      | cons l ls =>
        cases δ with
        | nil => simp [InRange] at h3
        | cons x xs =>
          simp only [InRange] at h3
          have := ih (lay := ls) (outer := os) (δ := xs) (by simpa using h1) (by simpa using h2) h3.2
          simp only [List.zip_cons_cons, List.all_cons, Bool.and_eq_true, decide_eq_true_eq, this, validShape,
            List.map_cons, InRange]
          constructor
          · rintro ⟨h4, h5⟩; exact ⟨by omega, h5⟩
          · rintro ⟨h4, h5⟩; exact ⟨by omega, h5⟩

theorem valid_sub : ∀ {starts lay outer δ : List Nat}, starts.length = outer.length → lay.length = outer.length →
    InRange (validShape starts lay outer) δ → InRange lay δ := by
  intro starts
  induction starts with
  | nil =>
    intro lay outer δ h1 h2 h3
    cases outer with
    | nil =>
      cases lay with
      | nil => simpa [validShape] using h3
      | cons _ _ => simp at h2
    | cons _ _ => simp at h1
  | cons s ss ih =>
    intro lay outer δ h1 h2 h3
    cases outer with
    | nil => simp at h1
    | cons o os =>
      cases lay with
      | nil => simp at h2
      | cons l ls =>
        cases δ with
        | nil => simp [InRange, validShape] at h3
        | cons x xs =>
          simp only [validShape, List.zip_cons_cons, List.map_cons, InRange] at h3
          exact ⟨by omega, ih (by simpa using h1) (by simpa using h2) h3.2⟩

/-- The lines of a stripe. -/
def stripeT (outer lay : List Nat) (m : Nat) (cell : List Nat → Bytes) (cp : List Nat) : Bytes :=
  (indices (validShape (mulIx cp lay) lay outer)).flatMap fun δ =>
    (List.range m).flatMap fun j => cell (addIx (mulIx cp lay) δ ++ [j])

theorem chunkData_append {lay cp : List Nat} (h : cp.length = lay.length) (cl gc : Nat) (cell : List Nat → Bytes) :
    chunkData (lay ++ [cl]) cell (cp ++ [gc]) =
      (indices lay).flatMap fun δ => (List.range cl).flatMap fun j => cell (addIx (mulIx cp lay) δ ++ [gc * cl + j]) := by
  rw [chunkData, indices_append, List.flatMap_assoc]
  apply flatMap_congr_mem
  intro δ hδ
  rw [List.flatMap_map]
  apply flatMap_congr_mem
  intro j _
  have hδl := (mem_indices.mp hδ).length
  rw [mulIx_append h, addIx_append (by simp only [mulIx, List.length_zipWith]; omega)]

theorem zip_mul (a b : List Nat) : (a.zip b).map (fun p => p.1 * p.2) = mulIx a b := by
  rw [mulIx, List.map_zip_eq_zipWith]
  rfl

theorem drop_range_take (m a n : Nat) (h : a + n ≤ m) :
    ((List.range m).drop a).take n = (List.range n).map (a + ·) := by
  apply List.ext_getElem?
  intro k
  by_cases hk : k < n
  · rw [List.getElem?_take_of_lt hk, List.getElem?_drop, List.getElem?_range (by omega), List.getElem?_map,
      List.getElem?_range hk]
    rfl
  · rw [List.getElem?_take_eq_none (by omega), List.getElem?_eq_none (by simp; omega)]

theorem drop_take_one {α : Type} {l : List α} {k : Nat} {x : α} (h : l[k]? = some x) : (l.drop k).take 1 = [x] := by
  induction l generalizing k with
  | nil => simp at h
  | cons y ys ih =>
    cases k with
    | zero => simp at h; simp [h]
    | succ k => simpa using ih (by simpa using h)

theorem stripe_ok {outer lay : List Nat} {m cl dt : Nat} {cell : List Nat → Bytes} {s : Nat} {cp : List Nat}
    (hlen : lay.length = outer.length) (hcl : 0 < cl) (hdt : 0 < dt)
    (hb : prod (lay ++ [cl]) < 2 ^ 64) (hcell : ∀ idx, (cell idx).length = dt)
    (hcp : InRange (gridShape outer lay) cp) (hs : rowIndex (gridShape outer lay) cp = s) (hlay : ∀ l ∈ lay, 0 < l) :
    stripeBytes (outer ++ [m]) (lay ++ [cl]) (gridShape outer lay ++ [(m + cl - 1) / cl]) dt s
      ((List.range ((m + cl - 1) / cl)).flatMap fun gc => chunkData (lay ++ [cl]) cell (cp ++ [gc])) =
      stripeT outer lay m cell cp := by
  have hcpl : cp.length = outer.length := by
    rw [hcp.length, gridShape, List.length_zipWith, hlen, Nat.min_self]
  have hstl : (mulIx cp lay).length = outer.length := by
    simp only [mulIx, List.length_zipWith]; omega
  have htake : (lay ++ [cl]).take (outer ++ [m]).length = lay ++ [cl] := by
    rw [List.take_of_length_le (by simp [hlen])]
  have hpl : prod (lay ++ [cl]) = prod lay * cl := by rw [prod_append]; simp [prod]
  -- the pieces of the target
  generalize hgl : (m + cl - 1) / cl = gl
  generalize hV : validShape (mulIx cp lay) lay outer = V
  have hrow : ∀ δ ∈ indices V, ((List.range m).flatMap fun j => cell (addIx (mulIx cp lay) δ ++ [j])).length = m * dt := by
    intro δ _
    rw [flatMap_length_eq fun j _ => hcell _, List.length_range]
  have hTl : (stripeT outer lay m cell cp).length = prod V * (m * dt) := by
    rw [stripeT, hV, flatMap_length_eq hrow, indices_length]
  -- the chunks
  generalize hchunks : ((List.range gl).flatMap fun gc => chunkData (lay ++ [cl]) cell (cp ++ [gc])) = chunks
  have hchunk : ∀ gc, gc < gl → (chunks.drop (gc * (prod64 (lay ++ [cl]) * dt))).take (prod64 (lay ++ [cl]) * dt) =
      chunkData (lay ++ [cl]) cell (cp ++ [gc]) := by
    intro gc hgc
    rw [prod64_eq hb, ← hchunks]
    have := flatMap_slice (l := List.range gl) (f := fun gc => chunkData (lay ++ [cl]) cell (cp ++ [gc]))
      (n := prod (lay ++ [cl]) * dt) (fun x _ => chunkData_length hcell) gc 1
    rw [Nat.one_mul] at this
    rw [this, drop_take_one (x := gc) (by simp [hgc])]
    simp
  -- one line of a chunk
  have hline : ∀ gc, gc < gl → ∀ δ, InRange lay δ → ∀ n, n ≤ cl →
      (((chunks.drop (gc * (prod64 (lay ++ [cl]) * dt))).take (prod64 (lay ++ [cl]) * dt)).drop
        (rowIndex lay δ * cl * dt)).take (n * dt) =
      (List.range n).flatMap fun j => cell (addIx (mulIx cp lay) δ ++ [gc * cl + j]) := by
    intro gc hgc δ hδ n hn
    rw [hchunk gc hgc, chunkData_append (by omega)]
    have hlin : ∀ δ ∈ indices lay, ((List.range cl).flatMap fun j => cell (addIx (mulIx cp lay) δ ++ [gc * cl + j])).length = cl * dt := by
      intro δ _
      rw [flatMap_length_eq fun j _ => hcell _, List.length_range]
    have h1 := flatMap_slice hlin (rowIndex lay δ) 1
    rw [Nat.one_mul, drop_take_one (indices_get hδ), List.flatMap_singleton] at h1
    have h2 : n * dt ≤ cl * dt := Nat.mul_le_mul_right _ hn
    rw [Nat.mul_assoc]
    have h3 := drop_take_take (((indices lay).flatMap fun δ => (List.range cl).flatMap fun j =>
      cell (addIx (mulIx cp lay) δ ++ [gc * cl + j])).drop (rowIndex lay δ * (cl * dt))) (n := cl * dt) (sb := 0) (m := n * dt) (by omega)
    rw [List.drop_zero, List.drop_zero] at h3
    rw [h3, h1]
    have h4 := flatMap_slice (l := List.range cl) (f := fun j => cell (addIx (mulIx cp lay) δ ++ [gc * cl + j])) (n := dt)
      (fun x _ => hcell _) 0 n
    rw [Nat.zero_mul, List.drop_zero] at h4
    rw [h4, drop_range_take _ _ _ (by omega), List.flatMap_map]
    simp
  -- the writes
  let off := fun (gc : Nat) (δ : List Nat) => (rowIndex V δ * m + gc * cl) * dt
  let num := fun (gc : Nat) => if m < gc * cl + cl then m - gc * cl else cl
  let W : List (Nat × Bytes) := (List.range gl).flatMap fun gc => (List.range (prod lay)).flatMap fun rc =>
    if (((mulIx cp lay).zip ((digits lay rc).zip outer)).all fun p => decide (p.1 + p.2.1 < p.2.2)) = true then
      (if m ≤ gc * cl then [] else
        [(off gc (digits lay rc), (((chunks.drop (gc * (prod64 (lay ++ [cl]) * dt))).take (prod64 (lay ++ [cl]) * dt)).drop
          (rc * cl * dt)).take (num gc * dt))])
    else []
  have hfold : stripeBytes (outer ++ [m]) (lay ++ [cl]) (gridShape outer lay ++ [gl]) dt s chunks =
      W.foldl (fun b w => blit b w.1 w.2) (List.replicate (prod V * m * dt) 0) := by
    unfold stripeBytes
    simp only [htake, List.dropLast_concat, List.getLastD_concat, foldl_mul, Nat.one_mul, undigits_eq]
    have hdig : digits (gridShape outer lay) s = cp := by rw [← hs, digits_row hcp]
    rw [hdig, zip_mul]
    have hV' : ((mulIx cp lay).zip (lay.zip outer)).map (fun p => min (p.1 + p.2.1) p.2.2 - p.1) = V := hV
    rw [hV']
    simp only [W, List.foldl_flatMap]
    congr 1
    funext buf gc
    congr 1
    funext buf rc
    split
    · split
      · rfl
      · rfl
    · rfl
  rw [hfold]
  have hmem : ∀ w ∈ W, ∃ gc δ, gc < gl ∧ InRange V δ ∧ gc * cl < m ∧
      w = (off gc δ, (List.range (num gc)).flatMap fun j => cell (addIx (mulIx cp lay) δ ++ [gc * cl + j])) := by
    intro w hw
    simp only [W, List.mem_flatMap, List.mem_range] at hw
    obtain ⟨gc, hgc, rc, hrc, hw⟩ := hw
    obtain ⟨hd1, hd2⟩ := digits_spec hlay rc
    rw [Nat.mod_eq_of_lt hrc] at hd2
    split at hw
    · rename_i hv
      rw [valid_iff hstl hlen hd1, hV] at hv
      split at hw
      · simp at hw
      · simp only [List.mem_singleton] at hw
        refine ⟨gc, digits lay rc, hgc, hv, by omega, ?_⟩
        rw [hw]
        have := hline gc hgc _ hd1 (num gc) (by simp only [num]; split <;> omega)
        rw [hd2] at this
        rw [this]
    · simp at hw
  have hnum : ∀ gc, gc * cl < m → num gc ≤ cl ∧ gc * cl + num gc ≤ m := by
    intro gc h
    simp only [num]
    split <;> omega
  have hwl : ∀ gc δ, ((List.range (num gc)).flatMap fun j => cell (addIx (mulIx cp lay) δ ++ [gc * cl + j])).length = num gc * dt := by
    intro gc δ
    rw [flatMap_length_eq fun j _ => hcell _, List.length_range]
  apply foldl_blit_eq
  · rw [List.length_replicate, hTl, Nat.mul_assoc]
  · intro w hw
    obtain ⟨gc, δ, hgc, hδ, hlt, rfl⟩ := hmem w hw
    obtain ⟨hn1, hn2⟩ := hnum gc hlt
    simp only [hwl, off]
    have hr := rowIndex_lt hδ
    have e1 : (rowIndex V δ * m + gc * cl) * dt = rowIndex V δ * (m * dt) + gc * cl * dt := by
      rw [Nat.add_mul, Nat.mul_assoc]
    have e2 : gc * cl * dt + num gc * dt ≤ m * dt := by
      rw [← Nat.add_mul]; exact Nat.mul_le_mul_right _ hn2
    have e3 : (rowIndex V δ + 1) * (m * dt) ≤ prod V * (m * dt) := Nat.mul_le_mul_right _ hr
    rw [Nat.add_mul, Nat.one_mul] at e3
    refine ⟨by rw [hTl, e1]; omega, ?_⟩
    rw [e1, ← List.drop_drop]
    rw [drop_take_take _ e2]
    have h1 := flatMap_slice hrow (rowIndex V δ) 1
    rw [Nat.one_mul, drop_take_one (indices_get hδ), List.flatMap_singleton] at h1
    have hT : stripeT outer lay m cell cp = (indices V).flatMap fun δ => (List.range m).flatMap fun j => cell (addIx (mulIx cp lay) δ ++ [j]) := by
      rw [stripeT, hV]
    rw [hT, h1]
    have h2 := flatMap_slice (l := List.range m) (f := fun j => cell (addIx (mulIx cp lay) δ ++ [j])) (n := dt)
      (fun x _ => hcell _) (gc * cl) (num gc)
    rw [h2, drop_range_take _ _ _ hn2, List.flatMap_map]
  · intro p hp
    rw [hTl] at hp
    have hmd : 0 < m * dt := by
      rcases Nat.eq_zero_or_pos (m * dt) with h | h
      · rw [h] at hp; omega
      · exact h
    have hr : p / (m * dt) < prod V := Nat.div_lt_of_lt_mul (by rwa [Nat.mul_comm])
    obtain ⟨δ, hδ, hδr⟩ := exists_index hr
    have hpe : p = rowIndex V δ * (m * dt) + p % (m * dt) := by
      rw [hδr, Nat.mul_comm]; exact (Nat.div_add_mod p (m * dt)).symm
    generalize hq : p % (m * dt) = q at hpe
    have hqlt : q < m * dt := by rw [← hq]; exact Nat.mod_lt _ hmd
    generalize hj : q / dt = j
    have hjm : j < m := by rw [← hj]; exact Nat.div_lt_of_lt_mul (by rwa [Nat.mul_comm])
    have hjq : j * dt ≤ q ∧ q < j * dt + dt := by
      have h1 := Nat.div_add_mod q dt
      have h2 := Nat.mod_lt q hdt
      rw [hj, Nat.mul_comm] at h1
      omega
    generalize hgc : j / cl = gc
    have hgj : gc * cl ≤ j ∧ j < gc * cl + cl := by
      have h1 := Nat.div_add_mod j cl
      have h2 := Nat.mod_lt j hcl
      rw [hgc, Nat.mul_comm] at h1
      omega
    have hgl' : gc < gl := by
      rw [← hgl]
      rw [Nat.lt_iff_add_one_le, Nat.le_div_iff_mul_le hcl, Nat.add_mul]
      omega
    have hδl : InRange lay δ := valid_sub hstl hlen (by rw [hV]; exact hδ)
    have hval := (valid_iff hstl hlen hδl).mpr (by rw [hV]; exact hδ)
    refine ⟨(off gc δ, (List.range (num gc)).flatMap fun j => cell (addIx (mulIx cp lay) δ ++ [gc * cl + j])), ?_, ?_, ?_⟩
    · simp only [W, List.mem_flatMap, List.mem_range]
      refine ⟨gc, hgl', rowIndex lay δ, rowIndex_lt hδl, ?_⟩
      rw [digits_row hδl, if_pos hval, if_neg (by omega), List.mem_singleton,
        hline gc hgl' δ hδl (num gc) (hnum gc (by omega)).1]
    · simp only [off]
      rw [Nat.add_mul, Nat.mul_assoc]
      have : gc * cl * dt ≤ j * dt := Nat.mul_le_mul_right _ hgj.1
      omega
    · simp only [off, hwl]
      rw [Nat.add_mul, Nat.mul_assoc]
      have hjn : j + 1 ≤ gc * cl + num gc := by simp only [num]; split <;> omega
      have : (j + 1) * dt ≤ (gc * cl + num gc) * dt := Nat.mul_le_mul_right _ hjn
      rw [Nat.add_mul, Nat.add_mul, Nat.one_mul] at this
      omega

/-! ### All stripes -/

theorem gridShape_append {a b : List Nat} (h : a.length = b.length) (x y : Nat) :
    gridShape (a ++ [x]) (b ++ [y]) = gridShape a b ++ [(x + y - 1) / y] := by
  simp only [gridShape, List.zipWith_append h, List.zipWith_cons_cons, List.zipWith_nil_right]

theorem layoutBytes_ok {outer lay : List Nat} {m cl dt : Nat} {cell : List Nat → Bytes}
    (hg : Geo (outer ++ [m]) (lay ++ [cl]) dt) (hcell : ∀ idx, (cell idx).length = dt) :
    layoutBytes (outer ++ [m]) (lay ++ [cl]) dt
      ((indices (gridShape (outer ++ [m]) (lay ++ [cl]))).flatMap (chunkData (lay ++ [cl]) cell)) =
      .ok ((indices (gridShape outer lay)).flatMap (stripeT outer lay m cell)) := by
  have hlen : lay.length = outer.length := by have := hg.len; simp only [List.length_append, List.length_singleton] at this; omega
  have hcl : 0 < cl := hg.lay cl (by simp)
  have hlay : ∀ l ∈ lay, 0 < l := fun l hl => hg.lay l (by simp [hl])
  have hb := hg.lay_lt
  unfold layoutBytes
  rw [if_neg hg.ne, hg.grid]
  simp only [Res.bind_ok, Res.pure_eq]
  rw [gridShape_append hlen.symm]
  simp only [List.getLastD_concat, List.dropLast_concat, foldl_mul, Nat.one_mul]
  congr 1
  rw [← map_digits (gridShape outer lay), List.flatMap_map]
  apply flatMap_congr_mem
  intro s hs
  simp only [List.mem_range] at hs
  obtain ⟨cp, hcp, hcps⟩ := exists_index hs
  have hdig : digits (gridShape outer lay) s = cp := by rw [← hcps, digits_row hcp]
  have hstr : ∀ c ∈ indices (gridShape outer lay),
      ((List.range ((m + cl - 1) / cl)).flatMap fun gc => chunkData (lay ++ [cl]) cell (c ++ [gc])).length =
      (m + cl - 1) / cl * (prod (lay ++ [cl]) * dt) := by
    intro c _
    rw [flatMap_length_eq fun x _ => chunkData_length hcell, List.length_range]
  have hpart : ((((indices (gridShape outer lay ++ [(m + cl - 1) / cl])).flatMap (chunkData (lay ++ [cl]) cell)).drop
      (s * ((m + cl - 1) / cl * (prod64 (lay ++ [cl]) * dt)))).take ((m + cl - 1) / cl * (prod64 (lay ++ [cl]) * dt))) =
      (List.range ((m + cl - 1) / cl)).flatMap fun gc => chunkData (lay ++ [cl]) cell (cp ++ [gc]) := by
    rw [prod64_eq (by omega), indices_append, List.flatMap_assoc]
    simp only [List.flatMap_map]
    have := flatMap_slice hstr s 1
    rw [Nat.one_mul] at this
    rw [this, drop_take_one (x := cp) (by rw [← hcps]; exact indices_get hcp)]
    simp
  rw [hpart, hstr cp (mem_indices.mpr hcp), prod64_eq (by omega), if_neg (by omega), hdig]
  exact stripe_ok hlen hcl hg.dt (by omega) hcell hcp hcps hlay

/-- Chunk by chunk, and in each chunk index by index. -/
def blocked (outer lay : List Nat) (f : List Nat → Bytes) : Bytes :=
  (indices (gridShape outer lay)).flatMap fun cp =>
    (indices (validShape (mulIx cp lay) lay outer)).flatMap fun δ => f (addIx (mulIx cp lay) δ)

/-- Stripes are in the order of the elements; here without the last dimension. -/
def InOrder : List Nat → List Nat → Prop
  | d :: ds, l :: ls => (l = 1 ∨ ∀ g ∈ gridShape ds ls, g ≤ 1) ∧ InOrder ds ls
  | _, _ => True

theorem range_blocks {β : Type} (d l : Nat) (hl : 0 < l) (f : Nat → List β) :
    ((List.range ((d + l - 1) / l)).flatMap fun a => (List.range (min (a * l + l) d - a * l)).flatMap fun b => f (a * l + b)) =
      (List.range d).flatMap f := by
  -- all of the chunks but the last are complete
  have key : ∀ g, (∀ a, a < g → a * l < d) →
      ((List.range g).flatMap fun a => (List.range (min (a * l + l) d - a * l)).flatMap fun b => f (a * l + b)) =
        (List.range (min (g * l) d)).flatMap f := by
    intro g
    induction g with
    | zero => intro _; simp
    | succ g ih =>
      intro h
      have hg := h g (by omega)
      rw [List.range_succ, List.flatMap_append, ih fun a ha => h a (by omega)]
      have e : min ((g + 1) * l) d = min (g * l) d + (min (g * l + l) d - g * l) := by rw [Nat.add_mul]; omega
      rw [e, List.range_add, List.flatMap_append, List.flatMap_map, Nat.min_eq_left (by omega)]
      simp
  rw [key]
  · have : d ≤ (d + l - 1) / l * l := by
      have h1 := Nat.div_add_mod (d + l - 1) l
      have h2 := Nat.mod_lt (d + l - 1) hl
      rw [Nat.mul_comm] at h1
      omega
    rw [Nat.min_eq_right this]
  · intro a ha
    rw [Nat.lt_iff_add_one_le, Nat.le_div_iff_mul_le hl, Nat.add_mul] at ha
    omega

theorem indices_le_one : ∀ {gs : List Nat}, (∀ g ∈ gs, g ≤ 1) →
    indices gs = [] ∨ indices gs = [List.replicate gs.length 0] := by
  intro gs
  induction gs with
  | nil => intro _; right; rfl
  | cons g gs ih =>
    intro h
    have hg := h g List.mem_cons_self
    rcases ih fun x hx => h x (List.mem_cons_of_mem _ hx) with h1 | h1
    · left
      simp [indices, h1]
    · rcases Nat.eq_zero_or_pos g with h0 | h0
      · left
        simp [indices, h0]
      · right
        have : g = 1 := by omega
        subst this
        simp [indices, h1, List.replicate_succ]

theorem blocked_cons {d l : Nat} {ds ls : List Nat} (f : List Nat → Bytes) :
    blocked (d :: ds) (l :: ls) f = (List.range ((d + l - 1) / l)).flatMap fun a =>
      (indices (gridShape ds ls)).flatMap fun cp => (List.range (min (a * l + l) d - a * l)).flatMap fun b =>
        (indices (validShape (mulIx cp ls) ls ds)).flatMap fun δ => f ((a * l + b) :: addIx (mulIx cp ls) δ) := by
  have hg : gridShape (d :: ds) (l :: ls) = (d + l - 1) / l :: gridShape ds ls := rfl
  have hm : ∀ a cp, mulIx (a :: cp) (l :: ls) = a * l :: mulIx cp ls := fun _ _ => rfl
  have ha : ∀ x y xs ys, addIx (x :: xs) (y :: ys) = (x + y) :: addIx xs ys := fun _ _ _ _ => rfl
  have hv : ∀ x xs, validShape (x :: xs) (l :: ls) (d :: ds) = (min (x + l) d - x) :: validShape xs ls ds := fun _ _ => rfl
  simp only [blocked, hg, hm, hv, indices, List.flatMap_assoc, List.flatMap_map, ha]

theorem blocked_eq : ∀ {outer lay : List Nat} (f : List Nat → Bytes), lay.length = outer.length → (∀ l ∈ lay, 0 < l) →
    InOrder outer lay → blocked outer lay f = rowMajor outer f := by
  intro outer
  induction outer with
  | nil =>
    intro lay f h _ _
    cases lay with
    | nil => simp [blocked, gridShape, indices, validShape, mulIx, addIx, rowMajor]
    | cons _ _ => simp at h
  | cons d ds ih =>
    intro lay f h1 h2 h3
    cases lay with
    | nil => simp at h1
    | cons l ls =>
      have hl := h2 l List.mem_cons_self
      obtain ⟨h3, h4⟩ := h3
      have ih' := fun f => ih (lay := ls) f (by simpa using h1) (fun x hx => h2 x (List.mem_cons_of_mem _ hx)) h4
      rw [blocked_cons, rowMajor_cons]
      rcases h3 with h3 | h3
      · subst h3
        simp only [Nat.add_sub_cancel, Nat.div_one, Nat.mul_one]
        apply flatMap_congr_mem
        intro a ha
        simp only [List.mem_range] at ha
        rw [← ih']
        have : min (a + 1) d - a = 1 := by omega
        simp only [this, List.range_one, List.flatMap_singleton, Nat.add_zero, blocked]
      · rw [← range_blocks d l hl]
        apply flatMap_congr_mem
        intro a _
        rcases indices_le_one h3 with h5 | h5
        · rw [h5]
          have : ∀ f, rowMajor ds f = [] := fun f => by rw [← ih', blocked, h5]; rfl
          simp [this]
        · rw [h5, List.flatMap_singleton]
          apply flatMap_congr_mem
          intro b _
          rw [← ih', blocked, h5, List.flatMap_singleton]

theorem rowMajor_append (outer : List Nat) (m : Nat) (cell : List Nat → Bytes) :
    rowMajor (outer ++ [m]) cell = rowMajor outer fun idx => (List.range m).flatMap fun j => cell (idx ++ [j]) := by
  rw [rowMajor, indices_append, List.flatMap_assoc, rowMajor]
  simp only [List.flatMap_map]

theorem covered_grid : ∀ {outer lay : List Nat} {m cl : Nat}, lay.length = outer.length → (∀ l ∈ lay, 0 < l) →
    Covered (outer ++ [m]) (lay ++ [cl]) → ∀ g ∈ gridShape outer lay, g ≤ 1 := by
  intro outer
  induction outer with
  | nil => intro lay m cl h _ _ g hg; simp [gridShape] at hg
  | cons d ds ih =>
    intro lay m cl h1 h2 h3 g hg
    cases lay with
    | nil => simp at h1
    | cons l ls =>
      have hl := h2 l List.mem_cons_self
      have hlen : ls.length = ds.length := by simpa using h1
      have h3' : d ≤ l ∧ Covered (ds ++ [m]) (ls ++ [cl]) := by
        cases ds with
        | nil =>
          cases ls with
          | nil => simpa [Covered] using h3
          | cons _ _ => simp at hlen
        | cons _ _ =>
          cases ls with
          | nil => simp at hlen
          | cons _ _ => simpa [Covered] using h3
      simp only [gridShape, List.zipWith_cons_cons, List.mem_cons] at hg
      rcases hg with rfl | hg
      · have : d + l - 1 < 2 * l := by omega
        have := Nat.div_lt_of_lt_mul (by rwa [Nat.mul_comm] at this)
        omega
      · exact ih hlen (fun x hx => h2 x (List.mem_cons_of_mem _ hx)) h3'.2 g hg

theorem inOrder_of : ∀ {outer lay : List Nat} {m cl : Nat}, lay.length = outer.length → (∀ l ∈ lay, 0 < l) →
    StripesInOrder (outer ++ [m]) (lay ++ [cl]) → InOrder outer lay := by
  intro outer
  induction outer with
  | nil => intro lay m cl _ _ _; simp [InOrder]
  | cons d ds ih =>
    intro lay m cl h1 h2 h3
    cases lay with
    | nil => simp at h1
    | cons l ls =>
      have hlen : ls.length = ds.length := by simpa using h1
      have h2' : ∀ l ∈ ls, 0 < l := fun x hx => h2 x (List.mem_cons_of_mem _ hx)
      have h3' : (l = 1 ∨ Covered (ds ++ [m]) (ls ++ [cl])) ∧ StripesInOrder (ds ++ [m]) (ls ++ [cl]) := by
        cases ds with
        | nil =>
          cases ls with
          | nil => simpa [StripesInOrder] using h3
          | cons _ _ => simp at hlen
        | cons _ _ =>
          cases ls with
          | nil => simp at hlen
          | cons _ _ => simpa [StripesInOrder] using h3
      exact ⟨h3'.1.imp_right fun h => covered_grid hlen h2' h, ih hlen h2' h3'.2⟩

/-- The layout reader gives the elements in their order. -/
theorem layoutBytes_rowMajor {dims layout : List Nat} {dt : Nat} {cell : List Nat → Bytes} (hg : Geo dims layout dt)
    (hcell : ∀ idx, (cell idx).length = dt) (ho : StripesInOrder dims layout) :
    layoutBytes dims layout dt ((indices (gridShape dims layout)).flatMap (chunkData layout cell)) =
      .ok (rowMajor dims cell) := by
  obtain ⟨outer, m, rfl⟩ : ∃ outer m, dims = outer ++ [m] :=
    ⟨dims.dropLast, dims.getLast hg.ne, (List.dropLast_concat_getLast hg.ne).symm⟩
  obtain ⟨lay, cl, rfl⟩ : ∃ lay cl, layout = lay ++ [cl] :=
    ⟨layout.dropLast, layout.getLast hg.layout_ne, (List.dropLast_concat_getLast hg.layout_ne).symm⟩
  have hlen : lay.length = outer.length := by have := hg.len; simp only [List.length_append, List.length_singleton] at this; omega
  have hlay : ∀ l ∈ lay, 0 < l := fun l hl => hg.lay l (by simp [hl])
  rw [layoutBytes_ok hg hcell, rowMajor_append, ← blocked_eq _ hlen hlay (inOrder_of hlen hlay ho)]
  rfl

end Verif.H5
