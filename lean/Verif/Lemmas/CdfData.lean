import Verif.Lemmas.CdfAttr
/-!
Variable data: storing, decoding, nesting, slicing.
-/
namespace Verif.Cdf

theorem seqRes_ok {α β : Type} (f : α → Res β) (g : α → β) (xs : List α)
    (h : ∀ x ∈ xs, f x = .ok (g x)) : seqRes (xs.map f) = .ok (xs.map g) := by
  induction xs with
  | nil => rfl
  | cons x xs ih =>
    simp only [List.map_cons, seqRes, h x (by simp), ih (fun y hy => h y (by simp [hy]))]
    simp

/-! ### Decoding -/

theorem decodeElems_length (k : Kind) (n : Nat) (b : Bytes) : (decodeElems k n b).length = n := by
  induction n generalizing b with
  | zero => rfl
  | succ n ih => simp [decodeElems, ih]

theorem decodeElems_drop (k : Kind) (i n : Nat) (b : Bytes) :
    (decodeElems k (i + n) b).drop i = decodeElems k n (b.drop (i * k.size)) := by
  induction i generalizing b with
  | zero => simp
  | succ i ih =>
    have : i + 1 + n = (i + n) + 1 := by omega
    rw [this, decodeElems, List.drop_succ_cons, ih, List.drop_drop, Nat.succ_mul]
    congr 2; omega

theorem decodeElems_take (k : Kind) (n m : Nat) (b : Bytes) :
    (decodeElems k (n + m) b).take n = decodeElems k n b := by
  induction n generalizing b with
  | zero => simp [decodeElems]
  | succ n ih =>
    have : n + 1 + m = (n + m) + 1 := by omega
    rw [this, decodeElems, List.take_succ_cons, ih, decodeElems]

theorem decodeElems_take_bytes (k : Kind) (n : Nat) (b : Bytes) :
    decodeElems k n (b.take (n * k.size)) = decodeElems k n b := by
  induction n generalizing b with
  | zero => rfl
  | succ n ih =>
    rw [decodeElems, decodeElems, List.take_take, List.drop_take]
    have h1 : min k.size ((n + 1) * k.size) = k.size := by
      rw [Nat.succ_mul]; omega
    have h2 : (n + 1) * k.size - k.size = n * k.size := by rw [Nat.succ_mul]; omega
    rw [h1, h2, ih]

/-! ### Nesting -/

/-- The Go type of the values of a variable with the given lengths. -/
def valTy (ty : NcType) : List Nat → GoTy
  | [] => match ty.kind with
    | none => .str
    | some k => .num k
  | [_] => rowTy ty
  | _ :: d :: ds => .slice (valTy ty (d :: ds))

/-- Elements in row-major order put into nested slices. -/
def nestV (ty : NcType) : List Nat → List GoVal → GoVal
  | [], data =>
    match ty.kind with
    | none => .str (stringOfByte ((bytesOf (data.take 1)).getD 0 0))
    | some _ => data.headD (.other false)
  | [d], data =>
    match ty.kind with
    | none => .str (bytesOf (data.take d))
    | some k => .slice (.num k) (data.take d)
  | d :: d1 :: ds, data =>
    .slice (valTy ty (d1 :: ds))
      ((List.range d).map (fun i => nestV ty (d1 :: ds) (data.drop (i * prod (d1 :: ds)))))

theorem nestV_ty (ty : NcType) (d : Nat) (ds : List Nat) (data : List GoVal) :
    (nestV ty (d :: ds) data).ty = valTy ty (d :: ds) := by
  cases ds with
  | nil =>
    simp only [nestV, valTy, rowTy]
    cases ty.kind <;> rfl
  | cons d1 ds => simp [nestV, valTy, GoVal.ty]

theorem eraseList_eq (xs : List CapVal) : CapVal.eraseList xs = xs.map CapVal.erase := by
  induction xs with
  | nil => simp [CapVal.eraseList]
  | cons x xs ih => simp [CapVal.eraseList, ih]

theorem cutRows_ok (ty : NcType) (d1 n : Nat) (data : List GoVal) (h : n * d1 ≤ data.length) :
    ∃ rows, cutRows ty d1 n data = .ok rows ∧
      rows.map CapVal.erase = (List.range n).map (fun i => nestV ty [d1] (data.drop (i * d1))) := by
  induction n generalizing data with
  | zero => exact ⟨[], rfl, rfl⟩
  | succ n ih =>
    rw [Nat.succ_mul] at h
    obtain ⟨rows, h1, h2⟩ := ih (data.drop d1) (by simp; omega)
    unfold cutRows
    rw [if_neg (by omega), h1]
    simp only [Res.bind_ok, Res.pure_eq]
    refine ⟨_, rfl, ?_⟩
    rw [List.range_succ_eq_map]
    simp only [List.map_cons, List.map_map, h2]
    congr 1
    · simp only [nestV, Nat.zero_mul, List.drop_zero]
      cases ty.kind <;> simp [CapVal.erase]
    · apply List.map_congr_left
      intro i _
      simp only [List.drop_drop, Function.comp, Nat.succ_eq_add_one, Nat.succ_mul]
      congr 2; omega

theorem foldl_innerLength (ds : List Nat) (n : Nat) :
    ds.foldl (fun n d => n * d % 2 ^ 64) (n % 2 ^ 64) = n * prod ds % 2 ^ 64 := by
  induction ds generalizing n with
  | nil => simp [prod]
  | cons d ds ih =>
    simp only [List.foldl_cons, prod]
    have : n % 2 ^ 64 * d % 2 ^ 64 = (n * d) % 2 ^ 64 := by
      rw [Nat.mul_mod, Nat.mod_mod, ← Nat.mul_mod]
    rw [this, ih, Nat.mul_assoc]

theorem innerLength_eq (ds : List Nat) (h : prod ds < 2 ^ 64) : innerLength ds = prod ds := by
  have := foldl_innerLength ds 1
  simp only [Nat.one_mul] at this
  unfold innerLength
  rw [show (1 : Nat) = 1 % 2 ^ 64 by decide, this, Nat.mod_eq_of_lt h]

theorem prod_pos {ds : List Nat} (h : ∀ d ∈ ds, 0 < d) : 0 < prod ds := by
  induction ds with
  | nil => decide
  | cons d ds ih =>
    exact Nat.mul_pos (h d (by simp)) (ih (fun x hx => h x (by simp [hx])))

theorem le_prod_of_mem {ds : List Nat} (h : ∀ d ∈ ds, 0 < d) {d : Nat} (hd : d ∈ ds) :
    d ≤ prod ds := by
  induction ds with
  | nil => simp at hd
  | cons x xs ih =>
    have hx := h x (by simp)
    have hxs := prod_pos (ds := xs) (fun y hy => h y (by simp [hy]))
    rcases List.mem_cons.mp hd with rfl | hd
    · exact Nat.le_mul_of_pos_right _ hxs
    · exact Nat.le_trans (ih (fun y hy => h y (by simp [hy])) hd) (Nat.le_mul_of_pos_left _ hx)

/-- The conversion builds the nested value, ignoring what is behind it. -/
theorem convertCap_ok (ty : NcType) (d0 d1 : Nat) (ds : List Nat) (data : List GoVal)
    (hpos : ∀ d ∈ d0 :: d1 :: ds, 0 < d) (hlen : prod (d0 :: d1 :: ds) ≤ data.length)
    (hb : prod (d0 :: d1 :: ds) < 2 ^ 63) :
    ∃ cv, convertCap ty (d0 :: d1 :: ds) data = .ok cv ∧
      cv.erase = nestV ty (d0 :: d1 :: ds) data := by
  induction ds generalizing d0 d1 data with
  | nil =>
    obtain ⟨rows, h1, h2⟩ := cutRows_ok ty d1 d0 data (by simp [prod] at hlen; omega)
    simp only [convertCap, h1, Res.bind_ok, Res.pure_eq]
    refine ⟨_, rfl, ?_⟩
    simp only [CapVal.erase, eraseList_eq, h2, nestV, valTy, prod, Nat.mul_one]
  | cons d2 ds ih =>
    have hposi : ∀ d ∈ d1 :: d2 :: ds, 0 < d := fun d hd => hpos d (by simp at hd ⊢; right; exact hd)
    have hP : 0 < prod (d1 :: d2 :: ds) := prod_pos hposi
    have hd0 : 0 < d0 := hpos d0 (by simp)
    have e : prod (d0 :: d1 :: d2 :: ds) = d0 * prod (d1 :: d2 :: ds) := rfl
    rw [e] at hlen hb
    have hPb : prod (d1 :: d2 :: ds) < 2 ^ 63 :=
      Nat.lt_of_le_of_lt (Nat.le_mul_of_pos_left _ hd0) hb
    have hd0b : d0 < 2 ^ 63 := Nat.lt_of_le_of_lt (Nat.le_mul_of_pos_right _ hP) hb
    have hdl : 0 < data.length := Nat.lt_of_lt_of_le (Nat.mul_pos hd0 hP) hlen
    rw [convertCap]
    rw [if_neg (by omega), if_neg (by omega)]
    simp only
    rw [innerLength_eq _ (by omega)]
    generalize hPe : prod (d1 :: d2 :: ds) = Q at *
    -- each piece converts
    have hpiece : ∀ i ∈ List.range d0, ∃ cv,
        (if i * Q > data.length then Res.panic
          else convertCap ty (d1 :: d2 :: ds) (data.drop (i * Q))) = .ok cv ∧
        cv.erase = nestV ty (d1 :: d2 :: ds) (data.drop (i * Q)) := by
      intro i hi
      have hi' : i < d0 := List.mem_range.mp hi
      have hle : i * Q + Q ≤ d0 * Q := by
        rw [← Nat.succ_mul]; exact Nat.mul_le_mul_right _ hi'
      rw [if_neg (by omega)]
      apply ih d1 d2 (data.drop (i * Q)) hposi
      · rw [hPe]; simp; omega
      · rw [hPe]; exact hPb
    -- choose the pieces
    have hseq : ∀ l : List Nat, (∀ i ∈ l, i ∈ List.range d0) → ∃ cvs,
        seqRes (l.map (fun i => if i * Q > data.length then Res.panic
          else convertCap ty (d1 :: d2 :: ds) (data.drop (i * Q)))) = .ok cvs ∧
        cvs.map CapVal.erase = l.map (fun i => nestV ty (d1 :: d2 :: ds) (data.drop (i * Q))) := by
      intro l hl
      induction l with
      | nil => exact ⟨[], rfl, rfl⟩
      | cons i l ihl =>
        obtain ⟨cvs, hc1, hc2⟩ := ihl (fun j hj => hl j (by simp [hj]))
        obtain ⟨cv, hv1, hv2⟩ := hpiece i (hl i (by simp))
        refine ⟨cv :: cvs, ?_, ?_⟩
        · simp only [List.map_cons, seqRes, hv1, hc1, Res.bind_ok, Res.pure_eq]
        · simp [hc2, hv2]
    obtain ⟨cvs, hc1, hc2⟩ := hseq (List.range d0) (fun i hi => hi)
    rw [hc1]
    simp only [Res.bind_ok]
    have hty : ∀ cv ∈ cvs, cv.erase.ty = valTy ty (d1 :: d2 :: ds) := by
      intro cv hcv
      have : cv.erase ∈ cvs.map CapVal.erase := List.mem_map_of_mem hcv
      rw [hc2] at this
      simp only [List.mem_map] at this
      obtain ⟨i, _, hi⟩ := this
      rw [← hi, nestV_ty]
    cases cvs with
    | nil =>
      have := congrArg List.length hc2
      simp at this
      omega
    | cons v0 vs =>
      have hall : (vs.all fun v => v.erase.ty == v0.erase.ty) = true := by
        rw [List.all_eq_true]
        intro v hv
        simp [hty v (by simp [hv]), hty v0 (by simp)]
      simp only [hall, if_true, Res.pure_eq]
      refine ⟨_, rfl, ?_⟩
      simp only [CapVal.erase, eraseList_eq, hc2, hty v0 (by simp), nestV, hPe]

end Verif.Cdf

namespace Verif.Cdf

theorem nestTy_valTy {ty : NcType} {k : Kind} (hk : ty.kind = some k) (n : Nat)
    (ds : List Nat) (hl : ds.length = n) (hn : 0 < n) :
    nestTy n (.num k) = valTy ty ds := by
  have hs : ∀ m t, nestTy m (.slice t) = .slice (nestTy m t) := by
    intro m
    induction m with
    | zero => intro t; rfl
    | succ m ih => intro t; simp only [nestTy, ih]
  subst hl
  induction ds with
  | nil => simp at hn
  | cons d ds ih =>
    cases ds with
    | nil => simp [nestTy, valTy, rowTy, hk]
    | cons d1 ds =>
      have := ih (by simp)
      simp only [List.length_cons] at this ⊢
      rw [nestTy, hs, this]
      simp [valTy]

/-- The conversion of exactly the data of a variable. -/
theorem convertCap_exact (ty : NcType) (dims : List Nat) (data : List GoVal)
    (hpos : ∀ d ∈ dims.tail, 0 < d) (hlen : data.length = prod dims) (hb : prod dims < 2 ^ 63)
    (hz : dims.head? = some 0 → dims.length ≤ 2 ∨ ty ≠ .char) :
    ∃ cv, convertCap ty dims data = .ok cv ∧ cv.erase = nestV ty dims data := by
  match dims, hpos, hlen, hb, hz with
  | [], _, hlen, _, _ =>
    cases data with
    | nil => simp [prod] at hlen
    | cons x xs =>
      simp only [convertCap, nestV]
      cases ty.kind
      · exact ⟨_, rfl, by simp [CapVal.erase]⟩
      · exact ⟨_, rfl, by simp [CapVal.erase]⟩
  | [d], _, hlen, _, _ =>
    have hd : data.take d = data := List.take_of_length_le (by simp [prod] at hlen; omega)
    simp only [convertCap, nestV, hd]
    cases ty.kind
    · exact ⟨_, rfl, by simp [CapVal.erase]⟩
    · exact ⟨_, rfl, by simp [CapVal.erase]⟩
  | d0 :: d1 :: ds, hpos, hlen, hb, hz =>
    by_cases h0 : d0 = 0
    · subst h0
      have hdata : data = [] := by
        apply List.length_eq_zero_iff.mp; rw [hlen]; simp [prod]
      subst hdata
      cases ds with
      | nil =>
        simp only [convertCap, cutRows, Res.bind_ok, Res.pure_eq]
        exact ⟨_, rfl, by simp [CapVal.erase, eraseList_eq, nestV, valTy]⟩
      | cons d2 ds =>
        have hc : ty ≠ .char := by
          have := hz rfl
          simpa using this
        have hk : ∃ k, ty.kind = some k := by
          cases ty <;> simp_all [NcType.kind]
        obtain ⟨k, hk⟩ := hk
        simp only [convertCap, List.length_nil, if_true]
        refine ⟨_, rfl, ?_⟩
        simp only [emptySlice, CapVal.erase, eraseList_eq, List.map_nil, nestV, List.range_zero]
        have hrk : ty.readKind = k := by simp [NcType.readKind, hk]
        rw [hrk, nestTy_valTy hk _ (d1 :: d2 :: ds) (by simp) (by simp)]
    · apply convertCap_ok
      · intro d hd
        rcases List.mem_cons.mp hd with rfl | hd
        · omega
        · exact hpos d (by simpa using hd)
      · omega
      · exact hb

/-! ### Slicing a nested value -/

theorem goSlice_nestV (ty : NcType) (d : Nat) (ds : List Nat) (data : List GoVal) (b e : Nat)
    (hbe : b ≤ e) (he : e ≤ d) :
    goSlice b e (nestV ty (d :: ds) data)
      = nestV ty ((e - b) :: ds) (data.drop (b * prod ds)) := by
  cases ds with
  | nil =>
    have hb : ∀ l : List GoVal, ((bytesOf l).drop b).take (e - b)
        = bytesOf ((l.drop b).take (e - b)) := by
      have hm : ∀ l : List GoVal, bytesOf l = l.map (fun v => match v with
          | .num _ b => UInt8.ofNat b
          | _ => 0) := by
        intro l
        induction l with
        | nil => rfl
        | cons x xs ih => cases x <;> simp [bytesOf, ih]
      intro l
      simp only [hm, List.map_drop, List.map_take]
    have ht : ∀ l : List GoVal, ((l.take d).drop b).take (e - b) = (l.drop b).take (e - b) := by
      intro l
      rw [List.drop_take, List.take_take]
      congr 1; omega
    simp only [nestV, prod, Nat.mul_one]
    cases ty.kind with
    | none => simp only [goSlice]; rw [hb, ht]
    | some k => simp only [goSlice]; rw [ht]
  | cons d1 ds =>
    simp only [nestV, goSlice]
    congr 1
    apply List.ext_getElem
    · simp; omega
    · intro i h1 h2
      simp only [List.getElem_take, List.getElem_drop, List.getElem_map, List.getElem_range,
        List.drop_drop]
      congr 2
      rw [Nat.add_mul]

/-- Only the first `prod dims` elements matter. -/
theorem nestV_take (ty : NcType) (dims : List Nat) (data : List GoVal) (n : Nat)
    (hn : prod dims ≤ n) : nestV ty dims (data.take n) = nestV ty dims data := by
  induction dims generalizing data n with
  | nil =>
    simp only [nestV, prod] at *
    cases data with
    | nil => simp
    | cons x xs =>
      cases n with
      | zero => omega
      | succ n => simp
  | cons d ds ih =>
    cases ds with
    | nil =>
      simp only [prod, Nat.mul_one] at hn
      simp only [nestV, List.take_take, Nat.min_eq_left hn]
    | cons d1 ds =>
      simp only [nestV]
      congr 1
      apply List.map_congr_left
      intro i hi
      have hi' := List.mem_range.mp hi
      rw [List.drop_take]
      apply ih
      have : i * prod (d1 :: ds) + prod (d1 :: ds) ≤ d * prod (d1 :: ds) := by
        rw [← Nat.succ_mul]; exact Nat.mul_le_mul_right _ hi'
      have e : prod (d :: d1 :: ds) = d * prod (d1 :: ds) := rfl
      rw [e] at hn
      omega

/-! ### Arrays -/

theorem leaves_length {base : GoTy} {leaf : GoVal → Prop} {dims : List Nat} {v : GoVal}
    (h : Rect base leaf dims v) : (leaves dims.length v).length = prod dims := by
  induction dims generalizing v with
  | nil => rfl
  | cons d ds ih =>
    obtain ⟨xs, rfl, hl, hx⟩ := h
    simp only [List.length_cons, leaves, prod]
    subst hl
    induction xs with
    | nil => simp
    | cons x xs ih2 =>
      simp only [List.flatMap_cons, List.length_append, ih (hx x (by simp)), List.length_cons]
      rw [ih2 (fun y hy => hx y (by simp [hy])), Nat.succ_mul]; omega

theorem leaves_sat {base : GoTy} {leaf : GoVal → Prop} {dims : List Nat} {v : GoVal}
    (h : Rect base leaf dims v) : ∀ x ∈ leaves dims.length v, leaf x := by
  induction dims generalizing v with
  | nil => intro x hx; simp [leaves] at hx; subst hx; exact h
  | cons d ds ih =>
    obtain ⟨xs, rfl, hl, hx⟩ := h
    intro y hy
    simp only [List.length_cons, leaves, List.mem_flatMap] at hy
    obtain ⟨x, hxm, hy⟩ := hy
    exact ih (hx x hxm) y hy

theorem flatMap_drop_const {α β : Type} (f : α → List β) (q : Nat) (xs : List α)
    (h : ∀ x ∈ xs, (f x).length = q) (tail : List β) (i : Nat) (hi : i < xs.length) :
    ∃ t, (xs.flatMap f ++ tail).drop (i * q) = f xs[i] ++ t := by
  induction xs generalizing i with
  | nil => simp at hi
  | cons x xs ih =>
    cases i with
    | zero => exact ⟨xs.flatMap f ++ tail, by simp⟩
    | succ i =>
      obtain ⟨t, ht⟩ := ih (fun y hy => h y (by simp [hy])) i (by simpa using hi)
      refine ⟨t, ?_⟩
      have hq := h x (by simp)
      simp only [List.flatMap_cons, List.append_assoc, List.getElem_cons_succ]
      rw [Nat.succ_mul, Nat.add_comm, ← List.drop_drop, List.drop_left' hq, ht]

theorem valTy_num {ty : NcType} {k : Kind} (hk : ty.kind = some k) (dims : List Nat) :
    valTy ty dims = tyNest (.num k) dims := by
  induction dims with
  | nil => simp [valTy, tyNest, hk]
  | cons d ds ih =>
    cases ds with
    | nil => simp [valTy, rowTy, hk, tyNest]
    | cons d1 ds => simp only [valTy, ih, tyNest]

/-- Numbers in row-major order nest back to the array they came from. -/
theorem nestV_num {ty : NcType} {k : Kind} (hk : ty.kind = some k) {dims : List Nat} {v : GoVal}
    (h : NumArray k dims v) (tail : List GoVal) :
    nestV ty dims (leaves dims.length v ++ tail) = v := by
  induction dims generalizing v tail with
  | nil => simp [nestV, hk, leaves]
  | cons d ds ih =>
    have h' := h
    obtain ⟨xs, rfl, hl, hx⟩ := h
    cases ds with
    | nil =>
      have hlv : leaves 1 (.slice (tyNest (.num k) []) xs) = xs := by
        simp only [leaves]
        induction xs with
        | nil => rfl
        | cons x xs ih => simp [List.flatMap_cons]
      simp only [List.length_singleton, nestV, hk]
      rw [hlv, List.take_left' hl]
      rfl
    | cons d1 ds =>
      simp only [nestV, List.length_cons, leaves]
      rw [valTy_num hk]
      congr 1
      apply List.ext_getElem
      · simp [hl]
      · intro i h1 h2
        simp only [List.getElem_map, List.getElem_range]
        obtain ⟨t, ht⟩ := flatMap_drop_const (leaves (d1 :: ds).length) (prod (d1 :: ds)) xs
          (fun x hxm => leaves_length (hx x hxm)) tail i h2
        simp only [List.length_cons] at ht
        rw [ht]
        exact ih (hx _ (List.getElem_mem h2)) t

theorem storeNum_ok {k : Kind} {dims : List Nat} {v : GoVal} (h : NumArray k dims v)
    (hd : dims ≠ []) :
    storeNum k dims v = .ok ((leaves dims.length v).flatMap (fun x => beEnc k.size (bitsOf x))) := by
  induction dims generalizing v with
  | nil => exact absurd rfl hd
  | cons d ds ih =>
    obtain ⟨xs, rfl, hl, hx⟩ := h
    cases ds with
    | nil =>
      have hlv : leaves 1 (.slice (tyNest (.num k) []) xs) = xs := by
        simp only [leaves]
        clear hl hx
        induction xs with
        | nil => rfl
        | cons x xs ih => simp [List.flatMap_cons]
      rw [List.length_singleton, hlv]
      simp only [storeNum, tyNest, if_true]
      exact concatRes_ok _ _ _ (fun x hxm => elemBytes_ok (hx x hxm))
    | cons d1 ds =>
      simp only [storeNum, List.length_cons, leaves]
      rw [concatRes_ok _ (fun x => (leaves (ds.length + 1) x).flatMap
        (fun x => beEnc k.size (bitsOf x))) xs (fun x hxm => ih (hx x hxm) (by simp))]
      rw [List.flatMap_assoc]

end Verif.Cdf

/-! ### Characters -/

namespace Verif.Cdf

/-- The text of a string value. -/
def strOf : GoVal → Bytes
  | .str s => s
  | _ => []

/-- Bytes as Go `uint8` values. -/
def u8s (b : Bytes) : List GoVal := b.map (fun c => .num .u8 c.toNat)

theorem decodeElems_u8 (b : Bytes) : decodeElems .u8 b.length b = u8s b := by
  induction b with
  | nil => rfl
  | cons c cs ih =>
    have : beDec [c] = c.toNat := by simp [beDec, leDec]
    simp only [List.length_cons, decodeElems, Kind.size, List.take_succ_cons, List.take_zero,
      List.drop_succ_cons, List.drop_zero, this, ih, u8s, List.map_cons]

theorem bytesOf_u8s (b : Bytes) : bytesOf (u8s b) = b := by
  induction b with
  | nil => rfl
  | cons c cs ih =>
    simp only [u8s, List.map_cons, bytesOf]
    rw [← u8s, ih]
    simp

/-- The bytes of one string, padded. -/
def padBytes (L : Nat) (v : GoVal) : Bytes := strOf (padNul L v)

theorem padBytes_length {L : Nat} {v : GoVal} (h : StrVal L v) : (padBytes L v).length = L := by
  obtain ⟨s, rfl, hs⟩ := h
  simp [padBytes, padNul, strOf]
  omega

theorem storeChars_ok {L : Nat} {ds : List Nat} {v : GoVal} (h : StrArray L ds v) :
    storeChars (ds ++ [L]) v = .ok ((leaves ds.length v).flatMap (padBytes L)) := by
  induction ds generalizing v with
  | nil =>
    obtain ⟨s, rfl, hs⟩ := h
    simp [storeChars, leaves, padBytes, padNul, strOf]
  | cons d ds ih =>
    obtain ⟨xs, rfl, hl, hx⟩ := h
    have hne : ds ++ [L] ≠ [] := by simp
    have hstep : storeChars (d :: (ds ++ [L])) (.slice (tyNest .str ds) xs)
        = concatRes (xs.map (storeChars (ds ++ [L]))) := by
      cases hc : ds ++ [L] with
      | nil => exact absurd hc hne
      | cons e es => simp [storeChars]
    rw [List.cons_append, hstep, concatRes_ok _ _ xs (fun x hxm => ih (hx x hxm))]
    simp only [List.length_cons, leaves, List.flatMap_assoc]

theorem valTy_char (ds : List Nat) (L : Nat) : valTy .char (ds ++ [L]) = tyNest .str ds := by
  induction ds with
  | nil => rfl
  | cons d ds ih =>
    cases hc : ds ++ [L] with
    | nil => simp at hc
    | cons e es =>
      rw [hc] at ih
      simp only [List.cons_append, hc, valTy, ih, tyNest]

theorem prod_append (a b : List Nat) : prod (a ++ b) = prod a * prod b := by
  induction a with
  | nil => simp [prod]
  | cons x xs ih => simp [prod, ih, Nat.mul_assoc]

theorem chars_length {L : Nat} {ds : List Nat} {v : GoVal} (h : StrArray L ds v) :
    ((leaves ds.length v).flatMap (padBytes L)).length = prod (ds ++ [L]) := by
  rw [flatMap_length_const _ _ L (fun x hx => padBytes_length (leaves_sat h x hx)),
    leaves_length h, prod_append]
  simp [prod]

theorem u8s_flatMap {α : Type} (f : α → Bytes) (xs : List α) :
    u8s (xs.flatMap f) = xs.flatMap (fun x => u8s (f x)) := by
  induction xs with
  | nil => rfl
  | cons x xs ih =>
    simp only [u8s] at ih ⊢
    simp [List.flatMap_cons, ih]

theorem nestV_char {L : Nat} {ds : List Nat} {v : GoVal} (h : StrArray L ds v)
    (tail : List GoVal) :
    nestV .char (ds ++ [L]) (u8s ((leaves ds.length v).flatMap (padBytes L)) ++ tail)
      = mapLeaves (padNul L) ds.length v := by
  induction ds generalizing v tail with
  | nil =>
    obtain ⟨s, rfl, hs⟩ := h
    have hl := padBytes_length (L := L) (v := .str s) ⟨s, rfl, hs⟩
    simp only [List.nil_append, nestV, NcType.kind, List.length_nil, leaves, List.flatMap_cons,
      List.flatMap_nil, List.append_nil, mapLeaves]
    rw [List.take_left' (by simp [u8s, hl]), bytesOf_u8s]
    simp [padBytes, padNul, strOf]
  | cons d ds ih =>
    obtain ⟨xs, rfl, hl, hx⟩ := h
    have hstep : ∀ data, nestV .char (d :: (ds ++ [L])) data
        = .slice (valTy .char (ds ++ [L])) ((List.range d).map (fun i =>
          nestV .char (ds ++ [L]) (data.drop (i * prod (ds ++ [L]))))) := by
      intro data
      cases hc : ds ++ [L] with
      | nil => simp at hc
      | cons e es => simp [nestV]
    rw [List.cons_append, hstep, valTy_char]
    simp only [List.length_cons, leaves, mapLeaves]
    congr 1
    apply List.ext_getElem
    · simp [hl]
    · intro i h1 h2
      have h2' : i < xs.length := by simpa using h2
      simp only [List.getElem_map, List.getElem_range]
      rw [List.flatMap_assoc, u8s_flatMap]
      obtain ⟨t, ht⟩ := flatMap_drop_const
        (fun x => u8s ((leaves ds.length x).flatMap (padBytes L))) (prod (ds ++ [L])) xs
        (fun x hxm => by simp only [u8s, List.length_map]; exact chars_length (hx x hxm))
        tail i h2'
      rw [ht]
      exact ih (hx _ (List.getElem_mem h2')) t

end Verif.Cdf
