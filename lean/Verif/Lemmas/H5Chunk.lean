import Verif.Spec.H5Chunk
import Verif.Model.H5Data
import Verif.Lemmas.H5Index
import Verif.Lemmas.H5Stream
/-!
Arrays and their chunks.
-/
namespace Verif.H5

/-! ### Lists of equal pieces -/

theorem flatMap_length_eq {α β : Type} {l : List α} {f : α → List β} {n : Nat}
    (h : ∀ x ∈ l, (f x).length = n) : (l.flatMap f).length = l.length * n := by
  induction l with
  | nil => simp
  | cons x xs ih =>
    rw [List.flatMap_cons, List.length_append, h x List.mem_cons_self,
      ih fun y hy => h y (List.mem_cons_of_mem _ hy), List.length_cons, Nat.add_mul]
    omega

theorem flatMap_get {α β : Type} {l : List α} {f : α → List β} {n : Nat}
    (h : ∀ x ∈ l, (f x).length = n) {k q : Nat} {x : α} (hk : l[k]? = some x) (hq : q < n) :
    (l.flatMap f)[k * n + q]? = (f x)[q]? := by
  induction l generalizing k with
  | nil => simp at hk
  | cons y ys ih =>
    have hy := h y List.mem_cons_self
    cases k with
    | zero =>
      simp only [List.getElem?_cons_zero, Option.some.injEq] at hk
      subst hk
      rw [List.flatMap_cons, List.getElem?_append_left (by omega)]
      simp
    | succ k =>
      rw [List.flatMap_cons, List.getElem?_append_right (by rw [hy, Nat.add_mul]; omega), hy,
        show (k + 1) * n + q - n = k * n + q from by rw [Nat.add_mul]; omega]
      exact ih (fun z hz => h z (List.mem_cons_of_mem _ hz)) (by simpa using hk)

theorem flatMap_slice {α β : Type} {l : List α} {f : α → List β} {n : Nat}
    (h : ∀ x ∈ l, (f x).length = n) (a m : Nat) :
    ((l.flatMap f).drop (a * n)).take (m * n) = ((l.drop a).take m).flatMap f := by
  induction l generalizing a m with
  | nil => simp
  | cons y ys ih =>
    have hy := h y List.mem_cons_self
    have ih' := fun a m => ih (fun z hz => h z (List.mem_cons_of_mem _ hz)) a m
    cases a with
    | succ a =>
      rw [List.flatMap_cons, List.drop_succ_cons, ← ih' a m]
      congr 1
      rw [Nat.add_mul, List.drop_append, List.drop_eq_nil_of_le (by omega), List.nil_append]
      congr 1
      omega
    | zero =>
      cases m with
      | zero => simp
      | succ m =>
        rw [List.flatMap_cons, Nat.zero_mul, List.drop_zero, List.drop_zero, List.take_succ_cons, List.flatMap_cons]
        rw [Nat.add_mul, List.take_append, List.take_of_length_le (by omega)]
        congr 1
        have := ih' 0 m
        rw [Nat.zero_mul, List.drop_zero, List.drop_zero] at this
        rw [← this]
        congr 1
        omega

/-! ### Indices -/

theorem indices_length (dims : List Nat) : (indices dims).length = prod dims := by
  induction dims with
  | nil => rfl
  | cons d ds ih =>
    rw [indices, flatMap_length_eq (n := prod ds) (by simp [ih]), List.length_range, prod]

theorem mem_indices {dims idx : List Nat} : idx ∈ indices dims ↔ InRange dims idx := by
  induction dims generalizing idx with
  | nil => cases idx <;> simp [indices, InRange]
  | cons d ds ih =>
    simp only [indices, List.mem_flatMap, List.mem_range, List.mem_map]
    cases idx with
    | nil => simp [InRange]
    | cons i is =>
      simp only [InRange, List.cons.injEq]
      constructor
      · rintro ⟨j, hj, is', his', rfl, rfl⟩
        exact ⟨hj, ih.mp his'⟩
      · rintro ⟨h1, h2⟩
        exact ⟨i, h1, is, ih.mpr h2, rfl, rfl⟩

theorem InRange.length {dims idx : List Nat} (h : InRange dims idx) : idx.length = dims.length := by
  induction dims generalizing idx with
  | nil => cases idx <;> simp_all [InRange]
  | cons d ds ih =>
    cases idx with
    | nil => simp [InRange] at h
    | cons i is => simp only [InRange] at h; simp [ih h.2]

theorem rowIndex_lt {dims idx : List Nat} (h : InRange dims idx) : rowIndex dims idx < prod dims := by
  induction dims generalizing idx with
  | nil => cases idx <;> simp [rowIndex, prod]
  | cons d ds ih =>
    cases idx with
    | nil => simp [InRange] at h
    | cons i is =>
      simp only [InRange] at h
      have := ih h.2
      simp only [rowIndex, prod]
      have h2 : (i + 1) * prod ds ≤ d * prod ds := Nat.mul_le_mul_right _ h.1
      rw [Nat.add_mul] at h2
      omega

theorem indices_get {dims idx : List Nat} (h : InRange dims idx) :
    (indices dims)[rowIndex dims idx]? = some idx := by
  induction dims generalizing idx with
  | nil => cases idx <;> simp_all [InRange, rowIndex, indices]
  | cons d ds ih =>
    cases idx with
    | nil => simp [InRange] at h
    | cons i is =>
      simp only [InRange] at h
      rw [indices, rowIndex]
      rw [flatMap_get (x := i) (n := prod ds) (by simp [indices_length]) (by simp [h.1]) (rowIndex_lt h.2)]
      rw [List.getElem?_map, ih h.2]
      rfl

theorem exists_index {dims : List Nat} {r : Nat} (h : r < prod dims) :
    ∃ idx, InRange dims idx ∧ rowIndex dims idx = r := by
  induction dims generalizing r with
  | nil => exact ⟨[], trivial, by simp [prod] at h; simp [rowIndex, h]⟩
  | cons d ds ih =>
    simp only [prod] at h
    have hpos : 0 < prod ds := by
      rcases Nat.eq_zero_or_pos (prod ds) with h0 | h0
      · rw [h0] at h; omega
      · exact h0
    obtain ⟨is, h1, h2⟩ := ih (Nat.mod_lt r hpos)
    refine ⟨r / prod ds :: is, ⟨Nat.div_lt_of_lt_mul (by rwa [Nat.mul_comm]), h1⟩, ?_⟩
    rw [rowIndex, h2, Nat.mul_comm]
    exact Nat.div_add_mod r (prod ds)

theorem rowIndex_inj {dims a b : List Nat} (ha : InRange dims a) (hb : InRange dims b)
    (h : rowIndex dims a = rowIndex dims b) : a = b := by
  have h1 := indices_get ha
  rw [h, indices_get hb] at h1
  exact (Option.some.inj h1).symm

theorem rowMajor_length {dims : List Nat} {cell : List Nat → Bytes} {n : Nat}
    (h : ∀ idx, InRange dims idx → (cell idx).length = n) : (rowMajor dims cell).length = prod dims * n := by
  rw [rowMajor, flatMap_length_eq fun x hx => h x (mem_indices.mp hx), indices_length]

theorem chunkData_length {layout c : List Nat} {cell : List Nat → Bytes} {n : Nat}
    (h : ∀ idx, (cell idx).length = n) : (chunkData layout cell c).length = prod layout * n := by
  rw [chunkData, flatMap_length_eq fun x _ => h _, indices_length]

/-! ### Sizes -/

theorem foldl_mul_mod (xs : List Nat) (a : Nat) (ha : a < 2 ^ 64) :
    xs.foldl (fun a b => a * b % 2 ^ 64) a = a * prod xs % 2 ^ 64 := by
  induction xs generalizing a with
  | nil => simp only [List.foldl_nil, prod, Nat.mul_one]; rw [Nat.mod_eq_of_lt ha]
  | cons x xs ih =>
    rw [List.foldl_cons, ih _ (Nat.mod_lt _ (by decide)), prod, Nat.mod_mul_mod, Nat.mul_assoc]

theorem prod64_mod (xs : List Nat) : prod64 xs = prod xs % 2 ^ 64 := by
  rw [prod64, foldl_mul_mod _ _ (by decide), Nat.one_mul]

theorem prod64_eq {xs : List Nat} (h : prod xs < 2 ^ 64) : prod64 xs = prod xs := by
  rw [prod64_mod, Nat.mod_eq_of_lt h]

theorem foldl_mul (xs : List Nat) (a : Nat) : xs.foldl (· * ·) a = a * prod xs := by
  induction xs generalizing a with
  | nil => simp [prod]
  | cons x xs ih => rw [List.foldl_cons, ih, prod, Nat.mul_assoc]

theorem prod_pos_of {xs : List Nat} (h : ∀ x ∈ xs, 0 < x) : 0 < prod xs := by
  induction xs with
  | nil => simp [prod]
  | cons x xs ih =>
    exact Nat.mul_pos (h x List.mem_cons_self) (ih fun y hy => h y (List.mem_cons_of_mem _ hy))

theorem gridOf_eq : ∀ {dims layout : List Nat}, layout.length = dims.length → (∀ l ∈ layout, 0 < l) →
    (∀ d ∈ dims, d < 2 ^ 62) → (∀ l ∈ layout, l < 2 ^ 62) → gridOf dims layout = .ok (gridShape dims layout) := by
  intro dims
  induction dims with
  | nil => intro layout h _ _ _; cases layout <;> simp_all [gridOf, gridShape]
  | cons d ds ih =>
    intro layout h h1 h2 h3
    cases layout with
    | nil => simp at h
    | cons l ls =>
      have hl := h1 l List.mem_cons_self
      have hd := h2 d List.mem_cons_self
      have hl3 := h3 l List.mem_cons_self
      have := ih (layout := ls) (by simpa using h) (fun x hx => h1 x (List.mem_cons_of_mem _ hx))
        (fun x hx => h2 x (List.mem_cons_of_mem _ hx)) (fun x hx => h3 x (List.mem_cons_of_mem _ hx))
      rw [gridOf, if_neg (by omega), this]
      simp only [gridShape, List.zipWith_cons_cons]
      have : (d + l + (2 ^ 64 - 1)) % 2 ^ 64 = d + l - 1 := by omega
      rw [this]

theorem Geo.grid {dims layout : List Nat} {dtLen : Nat} (h : Geo dims layout dtLen) :
    gridOf dims layout = .ok (gridShape dims layout) := gridOf_eq h.len h.lay h.dlt h.llt

theorem Geo.layout_ne {dims layout : List Nat} {dtLen : Nat} (h : Geo dims layout dtLen) : layout ≠ [] := by
  intro e
  have := h.len
  rw [e] at this
  exact h.ne (List.length_eq_zero_iff.mp this.symm)

theorem Geo.lay_lt {dims layout : List Nat} {dtLen : Nat} (h : Geo dims layout dtLen) : prod layout < 2 ^ 63 :=
  Nat.lt_of_le_of_lt (Nat.le_mul_of_pos_right _ h.dt) h.chunk

theorem Geo.gl_lt {dims layout : List Nat} {dtLen : Nat} (h : Geo dims layout dtLen) :
    prod (gridShape dims layout) * prod layout < 2 ^ 63 :=
  Nat.lt_of_le_of_lt (Nat.le_mul_of_pos_right _ h.dt) h.size

theorem Geo.g_lt {dims layout : List Nat} {dtLen : Nat} (h : Geo dims layout dtLen) :
    prod (gridShape dims layout) < 2 ^ 63 :=
  Nat.lt_of_le_of_lt (Nat.le_mul_of_pos_right _ (prod_pos_of h.lay)) h.gl_lt

theorem Geo.calc {dims layout : List Nat} {dtLen : Nat} (h : Geo dims layout dtLen) :
    calcAttrSize dims layout dtLen = .ok (prod (gridShape dims layout) * (prod layout * dtLen)) := by
  have h1 := h.lay_lt
  have h2 := h.gl_lt
  have h3 := h.g_lt
  have h4 := h.size
  rw [calcAttrSize, if_neg h.layout_ne, h.grid]
  simp only [Res.map]
  rw [prod64_eq (by omega), prod64_eq (by omega), Nat.mod_eq_of_lt (a := prod (gridShape dims layout) * prod layout) (by omega),
    Nat.mod_eq_of_lt (by omega), Nat.mul_assoc]

/-- The sum the code computes, without wrap-around. -/
def flatSum (offsets layout grid : List Nat) : Nat → Nat
  | 0 => 0
  | n + 1 => flatSum offsets layout grid n + offsets.getD n 0 / layout.getD n 0 * prod (grid.drop (n + 1))

theorem flat_fold (offsets layout grid : List Nat) (n : Nat) :
    (List.range n).foldl (fun a i =>
        (a + offsets.getD i 0 / layout.getD i 0 * prod64 (grid.drop (i + 1))) % 2 ^ 64) 0 =
      flatSum offsets layout grid n % 2 ^ 64 := by
  induction n with
  | zero => simp [flatSum]
  | succ n ih =>
    rw [List.range_succ, List.foldl_append, ih, List.foldl_cons, List.foldl_nil, prod64_mod, flatSum]
    rw [Nat.add_mod, Nat.mod_mod, Nat.mul_mod_mod, ← Nat.add_mod]

theorem flatSum_cons (o l g : Nat) (os ls gs : List Nat) (n : Nat) :
    flatSum (o :: os) (l :: ls) (g :: gs) (n + 1) = o / l * prod gs + flatSum os ls gs n := by
  induction n with
  | zero => simp [flatSum]
  | succ n ih =>
    rw [flatSum, ih, flatSum]
    simp only [List.getD_cons_succ, List.drop_succ_cons]
    omega

theorem flatSum_eq : ∀ {dims layout c : List Nat}, layout.length = dims.length → (∀ l ∈ layout, 0 < l) →
    c.length = dims.length →
    flatSum (mulIx c layout) layout (gridShape dims layout) dims.length = rowIndex (gridShape dims layout) c := by
  intro dims
  induction dims with
  | nil => intro layout c _ _ h; cases c <;> simp_all [flatSum, rowIndex, gridShape]
  | cons d ds ih =>
    intro layout c h1 h2 h3
    cases layout with
    | nil => simp at h1
    | cons l ls =>
      cases c with
      | nil => simp at h3
      | cons i is =>
        have := ih (layout := ls) (c := is) (by simpa using h1) (fun x hx => h2 x (List.mem_cons_of_mem _ hx)) (by simpa using h3)
        simp only [mulIx, gridShape, List.zipWith_cons_cons, List.length_cons, rowIndex] at this ⊢
        rw [flatSum_cons, Nat.mul_div_cancel _ (h2 l List.mem_cons_self), this]

theorem Geo.flat {dims layout : List Nat} {dtLen : Nat} (h : Geo dims layout dtLen) {c : List Nat}
    (hc : InRange (gridShape dims layout) c) :
    flatOffset (mulIx c layout) dims layout dtLen =
      .ok (rowIndex (gridShape dims layout) c * (prod layout * dtLen)) := by
  have hcl : c.length = dims.length := by
    rw [hc.length, gridShape, List.length_zipWith, h.len, Nat.min_self]
  have hr := rowIndex_lt hc
  have h1 := h.lay_lt
  have h2 := h.gl_lt
  have h3 := h.g_lt
  have h4 := h.size
  have h5 : rowIndex (gridShape dims layout) c * prod layout < 2 ^ 63 :=
    Nat.lt_of_le_of_lt (Nat.mul_le_mul_right _ (by omega)) h2
  have h6 : rowIndex (gridShape dims layout) c * prod layout * dtLen < 2 ^ 63 :=
    Nat.lt_of_le_of_lt (Nat.mul_le_mul_right _ (Nat.mul_le_mul_right _ (by omega))) h4
  have hlen : (mulIx c layout).length = dims.length := by
    rw [mulIx, List.length_zipWith, h.len, hcl, Nat.min_self]
  rw [flatOffset, if_neg (by omega), h.grid]
  simp only [Res.map]
  rw [flat_fold, flatSum_eq h.len h.lay hcl, prod64_eq (by omega),
    Nat.mod_eq_of_lt (a := rowIndex (gridShape dims layout) c) (by omega), Nat.mod_eq_of_lt (a := _ * prod layout) (by omega),
    Nat.mod_eq_of_lt (by omega), Nat.mul_assoc]

/-! ### The stream of the chunks -/

/-- The chunks one after the other are the stream of the stored chunks. -/
theorem chunks_stream {grid layout : List Nat} {cell : List Nat → Bytes} {n : Nat} {pat : Bytes} {cs : List (List Nat)}
    (hcell : ∀ idx, (cell idx).length = n) (hpat : pat.length ∣ prod layout * n)
    (hin : ∀ c ∈ cs, InRange grid c)
    (hfill : ∀ c, InRange grid c → c ∉ cs → chunkData layout cell c = fillStream pat (prod layout * n)) :
    IsStream (cs.map fun c => ⟨rowIndex grid c * (prod layout * n), chunkData layout cell c⟩) (patByte pat) 0
      (prod grid * (prod layout * n)) ((indices grid).flatMap (chunkData layout cell)) := by
  generalize hL : prod layout * n = L at *
  have hcl : ∀ c, (chunkData layout cell c).length = L := fun c => by rw [chunkData_length hcell, hL]
  have hlen : ((indices grid).flatMap (chunkData layout cell)).length = prod grid * L := by
    rw [flatMap_length_eq fun x _ => hcl x, indices_length]
  refine ⟨by rw [hlen, Nat.sub_zero], fun p _ hp => ?_⟩
  have hLpos : 0 < L := by
    rcases Nat.eq_zero_or_pos L with h | h
    · rw [h] at hp; omega
    · exact h
  have hr : p / L < prod grid := Nat.div_lt_of_lt_mul (by rwa [Nat.mul_comm])
  obtain ⟨c, hc, hcr⟩ := exists_index hr
  have hpe : p = rowIndex grid c * L + p % L := by
    rw [hcr, Nat.mul_comm]; exact (Nat.div_add_mod p L).symm
  have hout : ((indices grid).flatMap (chunkData layout cell))[p - 0]? = (chunkData layout cell c)[p % L]? := by
    rw [Nat.sub_zero]
    conv => lhs; rw [hpe]
    exact flatMap_get (fun x _ => hcl x) (indices_get hc) (Nat.mod_lt _ hLpos)
  constructor
  · intro s hs hsc
    obtain ⟨c', hc', rfl⟩ := List.mem_map.mp hs
    simp only [Piece.Covers, hcl] at hsc
    have h1 : p / L = rowIndex grid c' := by
      apply Nat.div_eq_of_lt_le
      · omega
      · rw [Nat.add_mul]; omega
    have h2 : c = c' := rowIndex_inj hc (hin c' hc') (by omega)
    subst h2
    rw [hout]
    congr 1
    simp only
    omega
  · intro hn
    rw [hout]
    have : c ∉ cs := by
      intro hmem
      apply hn _ (List.mem_map.mpr ⟨c, hmem, rfl⟩)
      simp only [Piece.Covers, hcl]
      have := Nat.mod_lt p hLpos
      omega
    rw [hfill c hc this, fillStream_getElem? (Nat.mod_lt _ hLpos), patByte]
    congr 2
    exact Nat.mod_mod_of_dvd p hpat

end Verif.H5
