import Verif.Lemmas.CdfSlice
import Verif.Spec.Stored
/-!
`GetSliceMD`, and the values read in terms of `Stored`.
-/
namespace Verif.Cdf

/-! ### Rows keep at least their own elements -/

/-- The shape of a converted value. -/
def CapRect (ty : NcType) : List Nat → CapVal → Prop
  | [], _ => True
  | [d], cv =>
    match ty.kind with
    | none => ∃ s, cv = .leaf (.str s) ∧ s.length = d
    | some k => ∃ xs tail, cv = .row k xs tail ∧ xs.length = d
  | d :: d1 :: ds, cv => ∃ t xs, cv = .slice t xs ∧ xs.length = d ∧
      ∀ x ∈ xs, CapRect ty (d1 :: ds) x

theorem bytesOf_length (l : List GoVal) : (bytesOf l).length = l.length := by
  induction l with
  | nil => rfl
  | cons x xs ih => cases x <;> simp [bytesOf, ih]

theorem cutRows_rect {ty : NcType} {d1 n : Nat} {data : List GoVal} {rows : List CapVal}
    (h : cutRows ty d1 n data = .ok rows) :
    rows.length = n ∧ ∀ x ∈ rows, CapRect ty [d1] x := by
  induction n generalizing data rows with
  | zero => simp [cutRows] at h; subst h; simp
  | succ n ih =>
    unfold cutRows at h
    split at h
    · cases h
    · rename_i hlt
      rw [Res.bind_eq_ok] at h
      obtain ⟨rest, h1, h2⟩ := h
      simp only [Res.pure_eq, Res.ok.injEq] at h2
      subst h2
      obtain ⟨hl, hx⟩ := ih h1
      refine ⟨by simp [hl], ?_⟩
      intro x hxm
      rcases List.mem_cons.mp hxm with rfl | hxm
      · simp only [CapRect]
        cases ty.kind with
        | none => exact ⟨_, rfl, by rw [bytesOf_length, List.length_take]; omega⟩
        | some k => exact ⟨_, _, rfl, by rw [List.length_take]; omega⟩
      · exact hx x hxm

theorem seqRes_mem {α : Type} {rs : List (Res α)} {as : List α} (h : seqRes rs = .ok as) :
    as.length = rs.length ∧ ∀ a ∈ as, .ok a ∈ rs := by
  induction rs generalizing as with
  | nil => simp [seqRes] at h; subst h; simp
  | cons r rs ih =>
    unfold seqRes at h
    rw [Res.bind_eq_ok] at h
    obtain ⟨a, h1, h2⟩ := h
    rw [Res.bind_eq_ok] at h2
    obtain ⟨as', h3, h4⟩ := h2
    simp only [Res.pure_eq, Res.ok.injEq] at h4
    subst h4
    obtain ⟨hl, hm⟩ := ih h3
    refine ⟨by simp [hl], ?_⟩
    intro x hx
    rcases List.mem_cons.mp hx with rfl | hx
    · simp [h1]
    · exact List.mem_cons_of_mem _ (hm x hx)

theorem convertCap_rect2 {ty : NcType} {d0 d1 : Nat} {ds : List Nat} {data : List GoVal}
    {cv : CapVal} (h : convertCap ty (d0 :: d1 :: ds) data = .ok cv)
    (hne : ds ≠ [] → data.length = 0 → d0 = 0)
    (hlen : prod (d0 :: d1 :: ds) ≤ data.length) (hpos : ∀ d ∈ d1 :: ds, 0 < d)
    (hb : prod (d0 :: d1 :: ds) < 2 ^ 63) :
    CapRect ty (d0 :: d1 :: ds) cv := by
  induction ds generalizing d0 d1 data cv with
  | nil =>
    simp only [convertCap] at h
    rw [Res.bind_eq_ok] at h
    obtain ⟨rows, h1, h2⟩ := h
    simp only [Res.pure_eq, Res.ok.injEq] at h2
    subst h2
    obtain ⟨hl, hx⟩ := cutRows_rect h1
    exact ⟨_, _, rfl, hl, hx⟩
  | cons d2 ds ih =>
    rw [convertCap] at h
    split at h
    · rename_i h0
      simp only [Res.ok.injEq] at h
      subst h
      have := hne (by simp) h0
      subst this
      exact ⟨_, _, rfl, rfl, by simp⟩
    · rename_i h0
      split at h
      · cases h
      · rename_i hd0
        simp only at h
        have e : prod (d0 :: d1 :: d2 :: ds) = d0 * prod (d1 :: d2 :: ds) := rfl
        rw [e] at hlen hb
        have hP : 0 < prod (d1 :: d2 :: ds) := prod_pos hpos
        have hPb : prod (d1 :: d2 :: ds) < 2 ^ 63 :=
          Nat.lt_of_le_of_lt (Nat.le_mul_of_pos_left _ (by omega)) hb
        rw [innerLength_eq _ (by omega)] at h
        rw [Res.bind_eq_ok] at h
        obtain ⟨vals, h1, h2⟩ := h
        obtain ⟨hl, hm⟩ := seqRes_mem h1
        simp only [List.length_map, List.length_range] at hl
        have hshape : ∀ x ∈ vals, CapRect ty (d1 :: d2 :: ds) x := by
          intro x hx
          have := hm x hx
          simp only [List.mem_map, List.mem_range] at this
          obtain ⟨i, hi, hxi⟩ := this
          split at hxi
          · cases hxi
          · have hle : i * prod (d1 :: d2 :: ds) + prod (d1 :: d2 :: ds)
                ≤ d0 * prod (d1 :: d2 :: ds) := by
              rw [← Nat.succ_mul]; exact Nat.mul_le_mul_right _ hi
            apply ih hxi
            · intro _ hz; rw [List.length_drop] at hz; omega
            · rw [List.length_drop]; omega
            · intro d hd; exact hpos d (List.mem_cons_of_mem _ hd)
            · exact hPb
        cases vals with
        | nil => cases h2
        | cons v0 vs =>
          simp only at h2
          split at h2
          · simp only [Res.pure_eq, Res.ok.injEq] at h2
            subst h2
            exact ⟨_, _, rfl, hl, hshape⟩
          · cases h2

theorem convertCap_rect {ty : NcType} {d0 : Nat} {ds : List Nat} {data : List GoVal}
    {cv : CapVal} (h : convertCap ty (d0 :: ds) data = .ok cv)
    (hlen : data.length = prod (d0 :: ds)) (hpos : ∀ d ∈ ds, 0 < d)
    (hb : prod (d0 :: ds) < 2 ^ 63) : CapRect ty (d0 :: ds) cv := by
  cases ds with
  | nil =>
    simp only [prod, Nat.mul_one] at hlen
    simp only [convertCap] at h
    simp only [CapRect]
    cases hk : ty.kind with
    | none =>
      simp only [hk, Res.ok.injEq] at h
      subst h
      exact ⟨_, rfl, by rw [bytesOf_length]; exact hlen⟩
    | some k =>
      simp only [hk, Res.ok.injEq] at h
      subst h
      exact ⟨_, _, rfl, hlen⟩
  | cons d1 ds =>
    apply convertCap_rect2 h
    · intro _ h0
      rw [h0] at hlen
      have hP : 0 < prod (d1 :: ds) := prod_pos hpos
      have e : prod (d0 :: d1 :: ds) = d0 * prod (d1 :: ds) := rfl
      rw [e] at hlen
      rcases Nat.mul_eq_zero.mp hlen.symm with h' | h'
      · exact h'
      · omega
    · omega
    · exact hpos
    · exact hb

/-- Ranges as the caller gives them. -/
def intRanges (rs : List (Nat × Nat)) : List (Int × Int) := rs.map (fun r => ((r.1 : Int), (r.2 : Int)))

theorem reflectSlice_ok {α : Type} {xs : List α} {b e : Nat} (h1 : b ≤ e) (h2 : e ≤ xs.length) :
    reflectSlice xs (b : Int) (e : Int) = .ok ((xs.drop b).take (e - b)) := by
  unfold reflectSlice
  rw [if_pos (by omega)]
  have : ((e : Int) - (b : Int)).toNat = e - b := by omega
  rw [this]; rfl

theorem sliceRecursive_ok {ty : NcType} {dims : List Nat} {cv : CapVal} (hc : CapRect ty dims cv)
    {rs : List (Nat × Nat)} (hin : InBox rs dims) (hne : dims ≠ [])
    (hch : ty = .char → rs.getLast? = dims.getLast?.map (fun L => (0, L))) :
    sliceRecursive (intRanges rs) cv = .ok (boxSlice rs cv.erase) := by
  induction dims generalizing cv rs with
  | nil => exact absurd rfl hne
  | cons d ds ih =>
    cases rs with
    | nil => simp [InBox] at hin
    | cons r rs =>
      obtain ⟨b, e⟩ := r
      obtain ⟨hbe, hed, hin⟩ := hin
      cases ds with
      | nil =>
        cases rs with
        | cons _ _ => simp [InBox] at hin
        | nil =>
        simp only [CapRect] at hc
        cases hk : ty.kind with
        | none =>
          rw [hk] at hc
          obtain ⟨s, rfl, hs⟩ := hc
          have hty : ty = .char := by cases ty <;> simp_all [NcType.kind]
          have := hch hty
          simp only [List.getLast?_singleton, Option.map_some, Option.some.injEq,
            Prod.mk.injEq] at this
          obtain ⟨rfl, rfl⟩ := this
          simp only [intRanges, List.map_cons, sliceRecursive, CapVal.erase, boxSlice,
            List.drop_zero, Nat.sub_zero]
          rw [← hs, List.take_length]
        | some k =>
          rw [hk] at hc
          obtain ⟨xs, tail, rfl, hx⟩ := hc
          simp only [intRanges, List.map_cons, List.map_nil, sliceRecursive, CapVal.erase, boxSlice]
          rw [reflectSlice_ok hbe (by rw [List.length_append]; omega)]
          simp only [Res.bind_ok, Res.pure_eq]
          rw [List.drop_append_of_le_length (by omega),
            List.take_append_of_le_length (by rw [List.length_drop]; omega)]
          congr 2
          simp
      | cons d1 ds =>
        obtain ⟨t, xs, rfl, hx, hxs⟩ := hc
        simp only [intRanges, List.map_cons, sliceRecursive, CapVal.erase, boxSlice, eraseList_eq]
        rw [reflectSlice_ok hbe (by omega)]
        simp only [Res.bind_ok]
        have hrs : rs ≠ [] := by intro h0; subst h0; simp [InBox] at hin
        have hlast : ty = .char → rs.getLast? = (d1 :: ds).getLast?.map (fun L => (0, L)) := by
          intro ht
          have := hch ht
          rw [List.getLast?_cons_cons] at this
          rw [← this]
          cases rs with
          | nil => exact absurd rfl hrs
          | cons r' rs' => rw [List.getLast?_cons_cons]
        rw [seqRes_ok (sliceRecursive (List.map (fun r => ((r.1 : Int), (r.2 : Int))) rs))
          (fun x => boxSlice rs x.erase) _ (by
          intro x hx'
          exact ih (hxs x (List.mem_of_mem_drop (List.mem_of_mem_take hx'))) hin (by simp) hlast)]
        simp only [Res.bind_ok, Res.pure_eq]
        rw [← List.map_drop, ← List.map_take, List.map_map]
        rfl

/-! ### Values as stored bytes -/

theorem flatMap_congr' {α β : Type} {l : List α} {f g : α → List β} (h : ∀ x ∈ l, f x = g x) :
    l.flatMap f = l.flatMap g := by
  induction l with
  | nil => rfl
  | cons x xs ih =>
    rw [List.flatMap_cons, List.flatMap_cons, h x (by simp), ih (fun y hy => h y (by simp [hy]))]

theorem leaves_nestV_num {ty : NcType} {k : Kind} (hk : ty.kind = some k) (dims : List Nat)
    (data : List GoVal) (hlen : prod dims ≤ data.length) :
    leaves dims.length (nestV ty dims data) = data.take (prod dims) := by
  induction dims generalizing data with
  | nil =>
    simp only [nestV, hk, List.length_nil, leaves, prod]
    cases data with
    | nil => simp [prod] at hlen
    | cons x xs => simp
  | cons d ds ih =>
    cases ds with
    | nil =>
      simp only [nestV, hk, List.length_cons, List.length_nil, leaves, prod, Nat.mul_one]
      simp only [prod, Nat.mul_one] at hlen
      generalize data.take d = l
      induction l with
      | nil => rfl
      | cons x xs ih => simp
    | cons d1 ds =>
      have hn : nestV ty (d :: d1 :: ds) data = .slice (valTy ty (d1 :: ds))
        ((List.range d).map (fun i => nestV ty (d1 :: ds) (data.drop (i * prod (d1 :: ds))))) := rfl
      rw [hn]
      simp only [List.length_cons, leaves]
      have e : prod (d :: d1 :: ds) = d * prod (d1 :: ds) := rfl
      rw [e] at hlen ⊢
      generalize prod (d1 :: ds) = Q at *
      rw [List.flatMap_map]
      have : ∀ i ∈ List.range d,
          leaves (ds.length + 1) (nestV ty (d1 :: ds) (data.drop (i * Q)))
            = (data.drop (i * Q)).take Q := by
        intro i hi
        have hle : i * Q + Q ≤ d * Q := by
          rw [← Nat.succ_mul]; exact Nat.mul_le_mul_right _ (List.mem_range.mp hi)
        exact ih _ (by rw [List.length_drop]; omega)
      rw [flatMap_congr' this]
      clear hn ih this e
      induction d with
      | zero => simp
      | succ d ihd =>
        have hle : d * Q + Q ≤ data.length := by rw [Nat.succ_mul] at hlen; exact hlen
        rw [List.range_succ, List.flatMap_append, ihd (by omega)]
        simp only [List.flatMap_cons, List.flatMap_nil, List.append_nil]
        rw [Nat.succ_mul, List.take_add]

theorem nestV_rect_num {ty : NcType} {k : Kind} (hk : ty.kind = some k) (dims : List Nat)
    (data : List GoVal) (hlen : prod dims ≤ data.length) (hdata : ∀ x ∈ data, NumVal k x)
    : NumArray k dims (nestV ty dims data) := by
  induction dims generalizing data with
  | nil =>
    simp only [nestV, hk, NumArray, Rect]
    cases data with
    | nil => simp [prod] at hlen
    | cons x xs => exact hdata x (by simp)
  | cons d ds ih =>
    cases ds with
    | nil =>
      simp only [prod, Nat.mul_one] at hlen
      simp only [nestV, hk]
      exact ⟨_, rfl, by rw [List.length_take]; omega,
        fun x hx => hdata x (List.mem_of_mem_take hx)⟩
    | cons d1 ds =>
      have hn : nestV ty (d :: d1 :: ds) data = .slice (valTy ty (d1 :: ds))
        ((List.range d).map (fun i => nestV ty (d1 :: ds) (data.drop (i * prod (d1 :: ds))))) := rfl
      rw [hn]
      have e : prod (d :: d1 :: ds) = d * prod (d1 :: ds) := rfl
      rw [e] at hlen
      refine ⟨_, by rw [valTy_num hk], by simp, ?_⟩
      intro x hx
      simp only [List.mem_map, List.mem_range] at hx
      obtain ⟨i, hi, rfl⟩ := hx
      have hle : i * prod (d1 :: ds) + prod (d1 :: ds) ≤ d * prod (d1 :: ds) := by
        rw [← Nat.succ_mul]; exact Nat.mul_le_mul_right _ hi
      exact ih _ (by rw [List.length_drop]; omega) (fun y hy => hdata y (List.mem_of_mem_drop hy))

theorem decodeElems_num (k : Kind) (n : Nat) (b : Bytes) (hb : n * k.size ≤ b.length) :
    (∀ x ∈ decodeElems k n b, NumVal k x) ∧
      (decodeElems k n b).flatMap numBytes = b.take (n * k.size) := by
  induction n generalizing b with
  | zero => simp [decodeElems]
  | succ n ih =>
    rw [Nat.succ_mul] at hb
    obtain ⟨h1, h2⟩ := ih (b.drop k.size) (by rw [List.length_drop]; omega)
    have hl : (b.take k.size).length = k.size := by rw [List.length_take]; omega
    constructor
    · intro x hx
      rcases List.mem_cons.mp hx with rfl | hx
      · refine ⟨_, rfl, ?_⟩
        have := beDec_lt (b.take k.size)
        rwa [hl] at this
      · exact h1 x hx
    · simp only [decodeElems, List.flatMap_cons, h2, numBytes]
      have := beEnc_beDec (b.take k.size)
      rw [hl] at this
      rw [this, Nat.succ_mul, Nat.add_comm (n * k.size), List.take_add]

theorem nestV_char_rect (ds : List Nat) (L : Nat) (data : List GoVal)
    (hlen : prod (ds ++ [L]) ≤ data.length) :
    Rect .str (StrLen L) ds (nestV .char (ds ++ [L]) data) ∧
      (leaves ds.length (nestV .char (ds ++ [L]) data)).flatMap strBytes
        = bytesOf (data.take (prod (ds ++ [L]))) := by
  induction ds generalizing data with
  | nil =>
    simp only [List.nil_append, prod, Nat.mul_one] at hlen
    simp only [List.nil_append, nestV, NcType.kind, prod, Nat.mul_one, List.length_nil, leaves]
    refine ⟨⟨_, rfl, ?_⟩, ?_⟩
    · rw [bytesOf_length, List.length_take]; omega
    · simp [strBytes]
  | cons d ds ih =>
    obtain ⟨d1, ds', hds⟩ : ∃ d1 ds', ds ++ [L] = d1 :: ds' := by
      cases ds with
      | nil => exact ⟨_, _, rfl⟩
      | cons x xs => exact ⟨_, _, rfl⟩
    have hv := valTy_char ds L
    rw [hds] at ih hv
    simp only [List.cons_append, hds] at hlen ⊢
    have hn : nestV .char (d :: d1 :: ds') data = .slice (valTy .char (d1 :: ds'))
      ((List.range d).map (fun i => nestV .char (d1 :: ds') (data.drop (i * prod (d1 :: ds'))))) := rfl
    have e : prod (d :: d1 :: ds') = d * prod (d1 :: ds') := rfl
    rw [hn, e]
    rw [e] at hlen
    generalize prod (d1 :: ds') = Q at *
    have hi : ∀ i ∈ List.range d, Q ≤ (data.drop (i * Q)).length := by
      intro i hi
      have hle : i * Q + Q ≤ d * Q := by
        rw [← Nat.succ_mul]; exact Nat.mul_le_mul_right _ (List.mem_range.mp hi)
      rw [List.length_drop]; omega
    constructor
    · refine ⟨_, by rw [hv], by simp, ?_⟩
      intro x hx
      simp only [List.mem_map] at hx
      obtain ⟨i, him, rfl⟩ := hx
      exact (ih _ (hi i him)).1
    · simp only [List.length_cons, leaves]
      rw [List.flatMap_map, List.flatMap_assoc]
      rw [flatMap_congr' (fun i him => (ih _ (hi i him)).2)]
      clear hi hn e ih
      have hba : ∀ a b, bytesOf (a ++ b) = bytesOf a ++ bytesOf b := by
        intro a b
        induction a with
        | nil => rfl
        | cons x xs ih => cases x <;> simp [bytesOf, ih]
      induction d with
      | zero => simp [bytesOf]
      | succ d ihd =>
        have hle : d * Q + Q ≤ data.length := by rw [Nat.succ_mul] at hlen; exact hlen
        rw [List.range_succ, List.flatMap_append, ihd (by omega)]
        simp only [List.flatMap_cons, List.flatMap_nil, List.append_nil]
        rw [Nat.succ_mul, List.take_add, hba]

/-- The value built from a run of bytes is the array stored in them. -/
theorem nestV_stored (ty : NcType) (dims : List Nat) (b : Bytes) (hd : dims ≠ [])
    (hb : b.length = prod dims * ty.size) :
    Stored ty.kind dims b (nestV ty dims (decodeElems ty.readKind (prod dims) b)) := by
  cases hk : ty.kind with
  | some k =>
    have hrk : ty.readKind = k := by simp [NcType.readKind, hk]
    have hsz : ty.size = k.size := by rw [← readKind_size, hrk]
    rw [hrk]
    rw [hsz] at hb
    obtain ⟨h1, h2⟩ := decodeElems_num k (prod dims) b (by omega)
    refine ⟨nestV_rect_num hk dims _ (by rw [decodeElems_length]; omega) h1, ?_⟩
    rw [leaves_nestV_num hk _ _ (by rw [decodeElems_length]; omega),
      List.take_of_length_le (by rw [decodeElems_length]; omega), h2,
      List.take_of_length_le (by omega)]
  | none =>
    have hty : ty = .char := by cases ty <;> simp_all [NcType.kind]
    subst hty
    have hsz : NcType.char.size = 1 := rfl
    have hrk : NcType.char.readKind = .u8 := rfl
    rw [hsz, Nat.mul_one] at hb
    rw [hrk, ← hb, decodeElems_u8]
    obtain ⟨ds, L, rfl⟩ : ∃ ds L, dims = ds ++ [L] :=
      ⟨dims.dropLast, dims.getLast hd, (List.dropLast_concat_getLast hd).symm⟩
    have hl : (u8s b).length = b.length := by simp [u8s]
    obtain ⟨h1, h2⟩ := nestV_char_rect ds L (u8s b) (by rw [hl]; omega)
    refine ⟨ds, L, rfl, h1, ?_⟩
    rw [h2, List.take_of_length_le (by rw [hl]; omega), bytesOf_u8s]

end Verif.Cdf
