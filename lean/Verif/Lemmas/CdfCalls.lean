import Verif.Lemmas.CdfTrip
import Verif.Spec.CdfWrite
import Verif.Spec.CdfLayout
import Verif.Lemmas.CdfBox
import Verif.Props.Names
/-!
Successful calls on the CDF writer lead to sound writer states.
-/
namespace Verif.Cdf

/-! ### Dimensions -/

/-- The part of a sound state that concerns dimensions. -/
structure DimInv (cw : Writer) : Prop where
  nodup : cw.dimNames.Nodup
  lens : GoMap.keys cw.dimLengths = cw.dimNames
  ids : ∀ i (h : i < cw.dimNames.length), cw.dimIds.get cw.dimNames[i] = some i
  next : cw.nextID = cw.dimNames.length
  nul : ∀ n ∈ cw.dimNames, NulFree n

/-- `cw'` has the dimensions of `cw` and possibly some more, and is otherwise the same. -/
structure DimExt (cw cw' : Writer) (new : List Bytes) : Prop where
  ext : ∀ m L, cw.dimLengths.get m = some L → cw'.dimLengths.get m = some L
  vars : cw'.vars = cw.vars
  attrs : cw'.globalAttrs = cw.globalAttrs
  version : cw'.version = cw.version
  names : ∀ m ∈ cw'.dimNames, m ∈ cw.dimNames ∨ m ∈ new

theorem useDim_ok {cw cw' : Writer} {n : Bytes} {len : Nat} (h : DimInv cw) (hn : NulFree n)
    (hu : cw.useDim n len = (cw', .ok ())) :
    DimInv cw' ∧ DimExt cw cw' [n] ∧ cw'.dimLengths.get n = some len := by
  unfold Writer.useDim at hu
  split at hu
  · rename_i L hL
    split at hu
    · cases hu
    · rename_i hlen
      cases hu
      refine ⟨h, ⟨fun _ _ h => h, rfl, rfl, rfl, fun m hm => Or.inl hm⟩, ?_⟩
      rw [hL]
      have : len = L := by omega
      rw [this]
  · rename_i hnone
    cases hu
    have hnot : n ∉ GoMap.keys cw.dimLengths := (GoMap.get_eq_none _ _).mp hnone
    have hnot' : n ∉ cw.dimNames := by rw [← h.lens]; exact hnot
    refine ⟨⟨?_, ?_, ?_, ?_, ?_⟩, ⟨?_, rfl, rfl, rfl, ?_⟩, ?_⟩
    · simp only
      rw [List.nodup_append]
      refine ⟨h.nodup, by simp, ?_⟩
      intro a ha b hb e
      simp at hb
      subst hb; subst e
      exact hnot' ha
    · simp only
      rw [GoMap.keys_set_of_not_mem _ _ _ hnot, h.lens]
    · intro i hi
      simp only [GoMap.get_set]
      simp only [List.length_append, List.length_singleton] at hi
      by_cases hlt : i < cw.dimNames.length
      · simp only [List.getElem_append_left hlt]
        have hne : cw.dimNames[i] ≠ n := fun e => hnot' (e ▸ List.getElem_mem hlt)
        rw [if_neg hne]
        exact h.ids i hlt
      · have hi' : i = cw.dimNames.length := by omega
        subst hi'
        simp [h.next]
    · simp [h.next]
    · intro m hm
      simp only [List.mem_append, List.mem_singleton] at hm
      rcases hm with hm | rfl
      · exact h.nul m hm
      · exact hn
    · intro m L hm
      simp only [GoMap.get_set]
      rw [if_neg]
      · exact hm
      · rintro rfl
        rw [hnone] at hm; cases hm
    · intro m hm
      simp only [List.mem_append, List.mem_singleton] at hm
      rcases hm with hm | rfl
      · exact Or.inl hm
      · exact Or.inr (by simp)
    · simp [GoMap.get_set]

theorem decDigits_nulFree (n : Nat) : NulFree (decDigits n) := by
  induction n using decDigits.induct with
  | case1 n h =>
    rw [decDigits, if_pos h]
    intro b hb
    simp only [List.mem_singleton] at hb
    subst hb
    intro e
    have := congrArg UInt8.toNat e
    simp at this
    omega
  | case2 n h ih =>
    rw [decDigits, if_neg h]
    intro b hb
    rcases List.mem_append.mp hb with hb | hb
    · exact ih b hb
    · simp only [List.mem_singleton] at hb
      subst hb
      intro e
      have := congrArg UInt8.toNat e
      simp at this
      omega

theorem genDimName_ok (cw : Writer) (ty : NcType) (name : Bytes) (l : Bool) (hn : NulFree name) :
    genDimName cw ty name l ≠ [] ∧ NulFree (genDimName cw ty name l) := by
  unfold genDimName
  split
  · refine ⟨by simp [ascii], ?_⟩
    intro b hb
    rcases List.mem_append.mp hb with hb | hb
    · exact (by decide : ∀ b ∈ ascii "_stringlen_", b ≠ 0) b hb
    · exact hn b hb
  · refine ⟨by simp [ascii], ?_⟩
    intro b hb
    rcases List.mem_append.mp hb with hb | hb
    · exact (by decide : ∀ b ∈ ascii "_dimid_", b ≠ 0) b hb
    · exact decDigits_nulFree _ b hb

theorem addDims_ok {name : Bytes} {ty : NcType} (hname : NulFree name) (lens : List Nat) :
    ∀ (i : Nat) (cw cw' : Writer) (dims dims' : List Bytes), DimInv cw → i ≤ dims.length →
    (∀ n ∈ dims, n ≠ [] ∧ NulFree n) →
    Writer.addDims name ty lens i cw dims = (cw', .ok dims') →
    DimInv cw' ∧ DimExt cw cw' ((dims'.drop i).take lens.length) ∧
    (∃ extra, dims' = dims ++ extra) ∧ i + lens.length ≤ dims'.length ∧
    (i + lens.length ≤ dims.length → dims' = dims) ∧
    (∀ n ∈ dims', n ≠ [] ∧ NulFree n) ∧
    ∀ j (h1 : j < lens.length) (h2 : i + j < dims'.length),
      cw'.dimLengths.get dims'[i + j] = some lens[j] := by
  induction lens with
  | nil =>
    intro i cw cw' dims dims' h hi hd ha
    simp only [Writer.addDims] at ha
    cases ha
    refine ⟨h, ⟨fun _ _ h => h, rfl, rfl, rfl, fun m hm => Or.inl hm⟩, ⟨[], by simp⟩,
      by simpa using hi, fun _ => rfl, hd, ?_⟩
    intro j h1; simp at h1
  | cons len lens ih =>
    intro i cw cw' dims dims' h hi hd ha
    rw [Writer.addDims] at ha
    -- the list of names after a name was made up if needed
    obtain ⟨dims1, hdims1, hi1, hd1, hpre, hsame⟩ : ∃ dims1,
        (if dims.getD i [] = [] then dims ++ [genDimName cw ty name lens.isEmpty] else dims) = dims1
        ∧ i < dims1.length ∧ (∀ n ∈ dims1, n ≠ [] ∧ NulFree n) ∧ (∃ e, dims1 = dims ++ e) ∧
        (i < dims.length → dims1 = dims) := by
      refine ⟨_, rfl, ?_⟩
      by_cases hlt : i < dims.length
      · have hg : dims.getD i [] = dims[i] := by simp [List.getD, hlt]
        have hne := (hd _ (List.getElem_mem hlt)).1
        rw [if_neg (by rw [hg]; exact hne)]
        exact ⟨hlt, hd, ⟨[], by simp⟩, fun _ => rfl⟩
      · have hg : dims.getD i [] = [] := by
          simp [List.getD, List.getElem?_eq_none (by omega : dims.length ≤ i)]
        rw [if_pos hg]
        refine ⟨by simp; omega, ?_, ⟨_, rfl⟩, fun h => absurd h hlt⟩
        intro n hn
        rcases List.mem_append.mp hn with hn | hn
        · exact hd n hn
        · simp only [List.mem_singleton] at hn
          subst hn
          exact genDimName_ok cw ty name _ hname
    simp only [hdims1] at ha
    rw [List.getElem?_eq_getElem hi1] at ha
    simp only at ha
    split at ha
    · rename_i cw1 hu
      obtain ⟨hinv1, hext1, hget1⟩ := useDim_ok h (hd1 _ (List.getElem_mem hi1)).2 hu
      obtain ⟨hinv, hext, ⟨e2, he2⟩, hlen, hsame2, hnames, hreg⟩ :=
        ih (i + 1) cw1 cw' dims1 dims' hinv1 (by omega) hd1 ha
      have hfirst : ∃ h : i < dims'.length, dims'[i] = dims1[i] := by
        refine ⟨by rw [he2, List.length_append]; omega, ?_⟩
        subst he2
        rw [List.getElem_append_left hi1]
      obtain ⟨hi2, hi3⟩ := hfirst
      have hdrop : dims'.drop i = dims1[i] :: dims'.drop (i + 1) := by
        rw [List.drop_eq_getElem_cons hi2, hi3]
      refine ⟨hinv, ⟨fun m L hm => hext.ext m L (hext1.ext m L hm), by rw [hext.vars, hext1.vars],
        by rw [hext.attrs, hext1.attrs], by rw [hext.version, hext1.version], ?_⟩, ?_, ?_, ?_,
        hnames, ?_⟩
      · intro m hm
        rw [hdrop, List.length_cons, List.take_succ_cons]
        rcases hext.names m hm with hm | hm
        · rcases hext1.names m hm with hm | hm
          · exact Or.inl hm
          · right; simp only [List.mem_singleton] at hm; rw [hm]; simp
        · right; exact List.mem_cons_of_mem _ hm
      · obtain ⟨e1, he1⟩ := hpre
        exact ⟨e1 ++ e2, by rw [he2, he1, List.append_assoc]⟩
      · rw [List.length_cons]; omega
      · intro hle
        rw [List.length_cons] at hle
        have := hsame (by omega)
        rw [hsame2 (by rw [this]; omega), this]
      · intro j h1 h2
        cases j with
        | zero =>
          simp only [Nat.add_zero, List.getElem_cons_zero]
          rw [hi3]
          exact hext.ext _ _ hget1
        | succ j =>
          have := hreg j (by simpa using h1) (by omega)
          simp only [List.getElem_cons_succ]
          have e : i + (j + 1) = i + 1 + j := by omega
          simp only [e]
          exact this
    · cases ha
    · cases ha

/-! ### Attributes -/

theorem baseKind_attr {v : GoVal} (h : AttrVal v) :
    NeedsV5 v ↔ (attrType v).isV5 = true := by
  have hk : ∀ k, V5Kind k ↔ (kindType k).isV5 = true := by
    intro k; cases k <;> simp [V5Kind, kindType, NcType.isV5]
  cases v with
  | num k bits => simp [NeedsV5, GoVal.ty, baseKind, attrType, hk]
  | str s => simp [NeedsV5, GoVal.ty, baseKind, attrType, NcType.isV5]
  | slice e xs =>
    cases e with
    | num k => simp [NeedsV5, GoVal.ty, baseKind, attrType, hk]
    | str => exact absurd h (by simp [AttrVal])
    | slice t => exact absurd h (by simp [AttrVal])
    | other b => exact absurd h (by simp [AttrVal])
  | other b => exact absurd h (by simp [AttrVal])
  | user u => exact absurd h (by simp [AttrVal])

theorem attrClass_ok {v : GoVal} (h : AttrVal v) : attrClass v = some (attrType v).isV5 := by
  cases v with
  | num k bits => rfl
  | str s => rfl
  | slice e xs =>
    cases e with
    | num k => rfl
    | str => exact absurd h (by simp [AttrVal])
    | slice t => exact absurd h (by simp [AttrVal])
    | other b => exact absurd h (by simp [AttrVal])
  | other b => exact absurd h (by simp [AttrVal])
  | user u => exact absurd h (by simp [AttrVal])

theorem checkV5Loop_ok {version : Nat} {om : OMap GoVal} (ks : List Bytes)
    (h : ∀ k ∈ ks, ∃ v, om.get k = some v ∧ AttrVal v) :
    ((∃ k ∈ ks, ∃ v, om.get k = some v ∧ NeedsV5 v) →
      checkV5Loop version om ks = (5, .ok ())) ∧
    ((¬ ∃ k ∈ ks, ∃ v, om.get k = some v ∧ NeedsV5 v) →
      checkV5Loop version om ks = (version, .ok ())) := by
  induction ks with
  | nil => simp [checkV5Loop]
  | cons k ks ih =>
    obtain ⟨v, hv, hav⟩ := h k (by simp)
    obtain ⟨ih1, ih2⟩ := ih (fun k' hk' => h k' (by simp [hk']))
    simp only [checkV5Loop, hv, Option.bind_some, attrClass_ok hav]
    cases h5 : (attrType v).isV5 with
    | true =>
      refine ⟨fun _ => by simp, fun hn => ?_⟩
      exact absurd ⟨k, by simp, v, hv, (baseKind_attr hav).mpr h5⟩ hn
    | false =>
      have hno : ¬ NeedsV5 v := fun hn => by
        rw [baseKind_attr hav, h5] at hn; cases hn
      simp only
      constructor
      · rintro ⟨k', hk', v', hv', h5'⟩
        apply ih1
        rcases List.mem_cons.mp hk' with rfl | hk'
        · rw [hv] at hv'; cases hv'; exact absurd h5' hno
        · exact ⟨k', hk', v', hv', h5'⟩
      · intro hn
        apply ih2
        rintro ⟨k', hk', v', hv', h5'⟩
        exact hn ⟨k', by simp [hk'], v', hv', h5'⟩

theorem checkV5_ok {version : Nat} {attrs : Attrs} (h : AttrsFine attrs) :
    (AttrsNeedV5 attrs → checkV5Attributes version attrs = (5, .ok ())) ∧
    (¬ AttrsNeedV5 attrs → checkV5Attributes version attrs = (version, .ok ())) := by
  cases attrs with
  | none => simp [AttrsNeedV5, keysOf, checkV5Attributes]
  | some om => exact checkV5Loop_ok om.visibleKeys (h om rfl).2

theorem nulFree_of_valid {u : UniTables} {n : Bytes} (h : isValidName u n = true) : NulFree n := by
  intro b hb e
  have := ((C07_accepted_is_safe u n h).2 b hb).1
  rw [e] at this
  exact this rfl

theorem attrsGood_of_fine {u : UniTables} {version : Nat} {attrs : Attrs} (h : AttrsFine attrs)
    (hv : hasValidNames u attrs = true) (h5 : AttrsNeedV5 attrs → version = 5) :
    AttrsGood version attrs := by
  intro om ho
  subst ho
  obtain ⟨h1, h2⟩ := h om rfl
  refine ⟨h1, ?_⟩
  intro k hk
  obtain ⟨v, hv1, hv2⟩ := h2 k hk
  simp only [hasValidNames, List.all_eq_true] at hv
  refine ⟨v, hv1, nulFree_of_valid (hv k hk), hv2, ?_⟩
  intro hi
  have := h5 ⟨k, hk, v, hv1, (baseKind_attr hv2).mpr hi⟩
  omega

theorem AttrsGood.mono {v1 v2 : Nat} (hv : v1 ≤ v2) {attrs : Attrs} (h : AttrsGood v1 attrs) :
    AttrsGood v2 attrs := by
  intro om ho
  obtain ⟨h1, h2⟩ := h om ho
  refine ⟨h1, ?_⟩
  intro k hk
  obtain ⟨v, a, b, c, d⟩ := h2 k hk
  exact ⟨v, a, b, c, fun e => by have := d e; omega⟩

/-! ### Values -/

theorem getDimLengths_num {k : Kind} (b : Bool) {dims : List Nat} {v : GoVal} (acc : List Nat)
    (h : NumArray k dims v) (hpos : ∀ d ∈ dims, 0 < d) :
    getDimLengths b v acc = .ok (acc ++ dims, kindType k) := by
  induction dims generalizing v acc with
  | nil =>
    obtain ⟨bits, rfl, _⟩ := h
    simp [getDimLengths]
  | cons d ds ih =>
    obtain ⟨xs, rfl, hl, hx⟩ := h
    have hd := hpos d (by simp)
    have he : tyNest (.num k) ds ≠ .str := by cases ds <;> simp [tyNest]
    cases xs with
    | nil => simp at hl; omega
    | cons x xs =>
      rw [getDimLengths.eq_def]
      simp only [if_neg he]
      rw [ih (acc ++ [(x :: xs).length]) (hx x (by simp)) (fun y hy => hpos y (by simp [hy])), hl]
      simp

theorem maxStrLen_le {L : Nat} (xs : List GoVal) (h : ∀ x ∈ xs, StrVal L x) : maxStrLen xs ≤ L := by
  induction xs with
  | nil => simp [maxStrLen]
  | cons x xs ih =>
    obtain ⟨s, rfl, hs⟩ := h x (by simp)
    have := ih (fun y hy => h y (by simp [hy]))
    simp only [maxStrLen]; omega

theorem le_maxStrLen {s : Bytes} (xs : List GoVal) (h : GoVal.str s ∈ xs) :
    s.length ≤ maxStrLen xs := by
  induction xs with
  | nil => simp at h
  | cons x xs ih =>
    rcases List.mem_cons.mp h with rfl | h
    · simp only [maxStrLen]; omega
    · have := ih h
      cases x <;> simp only [maxStrLen] <;> omega

theorem getDimLengths_str (b : Bool) {L : Nat} (hL : 0 < L) {ds : List Nat} (hne : ds ≠ [])
    {v : GoVal} (acc : List Nat) (h : StrArray L ds v) (hpos : ∀ d ∈ ds, 0 < d)
    (hrow : ∃ s, GoVal.str s ∈ (leaves ds.length v).take (ds.getLast hne) ∧ s.length = L) :
    getDimLengths b v acc = .ok (acc ++ (ds ++ [L]), .char) := by
  induction ds generalizing v acc with
  | nil => exact absurd rfl hne
  | cons d ds ih =>
    obtain ⟨xs, rfl, hl, hx⟩ := h
    have hd := hpos d (by simp)
    obtain ⟨s, hs, hsl⟩ := hrow
    cases ds with
    | nil =>
      have hm : maxStrLen xs = L := by
        have h1 := maxStrLen_le xs hx
        have h2 : GoVal.str s ∈ xs := by
          have := List.mem_of_mem_take hs
          simpa [leaves] using this
        have := le_maxStrLen xs h2
        omega
      rw [getDimLengths.eq_def]
      simp only [tyNest, if_true]
      rw [if_neg (by omega), hm, hl]
      simp
    | cons d2 ds =>
      have he : tyNest .str (d2 :: ds) ≠ .str := by simp [tyNest]
      cases xs with
      | nil => simp at hl; omega
      | cons x xs =>
        rw [getDimLengths.eq_def]
        simp only [if_neg he]
        have hx0 := hx x (by simp)
        have hlen := leaves_length hx0
        have hle : (d2 :: ds).getLast (by simp) ≤ prod (d2 :: ds) :=
          le_prod_of_mem (fun y hy => hpos y (List.mem_cons_of_mem _ hy)) (List.getLast_mem _)
        rw [ih (by simp) (acc ++ [(x :: xs).length]) hx0 (fun y hy => hpos y (by simp [hy])), hl]
        · simp
        · refine ⟨s, ?_, hsl⟩
          rw [List.getLast_cons (by simp)] at hs
          simp only [List.length_cons, leaves, List.flatMap_cons] at hs
          rw [List.take_append_of_le_length (by
            simp only [List.length_cons] at hlen; rw [hlen]; exact hle)] at hs
          exact hs

theorem numBits {k : Kind} (xs : List GoVal) :
    (xs.flatMap (fun x => beEnc k.size (bitsOf x))).length = xs.length * k.size :=
  flatMap_length_const _ _ _ (fun x _ => by simp)

theorem dataOf_of_store {sv : SavedVar} {b : Bytes} (h : storeVal sv = .ok b) : dataOf sv = b := by
  simp [dataOf, h]

theorem rawBytes_rect {base : GoTy} {leaf : GoVal → Prop} {dims : List Nat} {v : GoVal}
    (h : Rect base leaf dims v) : rawBytes v = (leaves dims.length v).flatMap rawBytes := by
  induction dims generalizing v with
  | nil => simp [leaves]
  | cons d ds ih =>
    obtain ⟨xs, rfl, _, hx⟩ := h
    simp only [List.length_cons, leaves, rawBytes, List.flatMap_assoc]
    exact flatMap_congr' (fun x hx' => ih (hx x hx'))

theorem rect_mapLeaves {base : GoTy} {leaf leaf' : GoVal → Prop} {f : GoVal → GoVal}
    (hf : ∀ x, leaf x → leaf' (f x)) {dims : List Nat} {v : GoVal} (h : Rect base leaf dims v) :
    Rect base leaf' dims (mapLeaves f dims.length v) ∧
      leaves dims.length (mapLeaves f dims.length v) = (leaves dims.length v).map f := by
  induction dims generalizing v with
  | nil => exact ⟨hf _ h, rfl⟩
  | cons d ds ih =>
    obtain ⟨xs, rfl, hl, hx⟩ := h
    refine ⟨⟨_, rfl, by simpa using hl, ?_⟩, ?_⟩
    · intro y hy
      obtain ⟨x, hx', rfl⟩ := List.mem_map.mp hy
      exact (ih (hx x hx')).1
    · simp only [List.length_cons, mapLeaves, leaves, List.flatMap_map, List.map_flatMap]
      exact flatMap_congr' (fun x hx' => (ih (hx x hx')).2)

/-- A supported value has the stated shape, can be stored and comes back. -/
theorem supported_ok {name : Bytes} {dims dims' : List Bytes} {attrs : Attrs} {v w : GoVal}
    {shape : List Nat} (h : Supported (!dims.isEmpty) v shape w) :
    ∃ ty, getDimLengths dims.isEmpty v [] = .ok (shape, ty) ∧ (∀ d ∈ shape, 0 < d) ∧
      (ty.isV5 = true ↔ NeedsV5 v) ∧ DataOK ⟨name, v, ty, shape, dims', attrs⟩ w ∧
      dataOf ⟨name, v, ty, shape, dims', attrs⟩ = rawBytes w := by
  have hk5 : ∀ k, V5Kind k ↔ (kindType k).isV5 = true := by
    intro k; cases k <;> simp [V5Kind, kindType, NcType.isV5]
  have hrk : ∀ k, (kindType k).readKind = k := by
    intro k; simp [NcType.readKind, kindType_kind]
  cases h with
  | scalar k bits hb hs =>
    refine ⟨kindType k, by simp [getDimLengths], by simp, ?_, ?_⟩
    · simp [NeedsV5, GoVal.ty, baseKind, hk5]
    · have hst : storeVal ⟨name, .num k bits, kindType k, [], dims', attrs⟩
          = .ok (beEnc k.size bits) := by
        simp only [storeVal, kindType_kind, storeNum, if_true]
        by_cases hf : k = .f32
        · have := hs hf
          unfold Signalling32 at this
          simp [hf, quiet32, this]
        · simp [hf]
      refine ⟨⟨by rw [dataOf_of_store hst]; exact hst, ?_, ?_⟩, by rw [dataOf_of_store hst, rawBytes]⟩
      · rw [dataOf_of_store hst]; simp [prod, kindType_size]
      · rw [dataOf_of_store hst]
        simp only [hrk, prod]
        have := decodeElems_flatMap k [.num k bits] (by
          intro x hx; simp at hx; exact ⟨bits, hx, hb⟩) []
        simp [bitsOf] at this
        rw [this]
        simp [nestV, kindType_kind]
  | array k _ _ hne hpos ha =>
    refine ⟨kindType k, by simpa using getDimLengths_num _ [] ha hpos, hpos, ?_, ?_⟩
    · have hty : ∀ (ds : List Nat) (v : GoVal), NumArray k ds v → baseKind v.ty = some k := by
        intro ds v hv
        have hb : ∀ ds, baseKind (tyNest (.num k) ds) = some k := by
          intro ds
          induction ds with
          | nil => rfl
          | cons d ds ih => simpa [tyNest, baseKind] using ih
        cases ds with
        | nil => obtain ⟨b, rfl, _⟩ := hv; rfl
        | cons d ds =>
          obtain ⟨xs, rfl, _⟩ := hv
          simpa [GoVal.ty, baseKind] using hb ds
      rw [NeedsV5, hty _ _ ha]
      simp [hk5]
    · have hst : storeVal ⟨name, v, kindType k, shape, dims', attrs⟩
          = .ok ((leaves shape.length v).flatMap (fun x => beEnc k.size (bitsOf x))) := by
        simp only [storeVal, kindType_kind]
        exact storeNum_ok ha hne
      have hsat := leaves_sat ha
      refine ⟨⟨by rw [dataOf_of_store hst]; exact hst, ?_, ?_⟩, ?_⟩
      rotate_left 2
      · rw [dataOf_of_store hst, rawBytes_rect ha]
        apply flatMap_congr'
        intro x hx
        obtain ⟨b, rfl, _⟩ := hsat x hx
        simp [rawBytes, bitsOf]
      · rw [dataOf_of_store hst, numBits, leaves_length ha, kindType_size]
      · rw [dataOf_of_store hst]
        simp only [hrk]
        have := decodeElems_flatMap k _ hsat []
        rw [List.append_nil, leaves_length ha] at this
        rw [this]
        have := nestV_num (kindType_kind k) ha []
        rwa [List.append_nil] at this
  | char c hc hn =>
    have hn' : dims.isEmpty = true := by simpa using hn
    refine ⟨.char, by simp [getDimLengths, hn'], by simp, ?_, ?_⟩
    · simp [NeedsV5, GoVal.ty, baseKind, NcType.isV5]
    · have hst : storeVal ⟨name, .str [c], .char, [], dims', attrs⟩ = .ok [c] := rfl
      refine ⟨⟨by rw [dataOf_of_store hst]; exact hst, ?_, ?_⟩, by rw [dataOf_of_store hst, rawBytes]⟩
      · rw [dataOf_of_store hst]; rfl
      · rw [dataOf_of_store hst]
        have h1 := decodeElems_u8 [c]
        simp only [List.length_singleton] at h1
        simp only [NcType.readKind, NcType.kind, Option.getD_none, prod]
        rw [h1]
        simp only [nestV, NcType.kind]
        have : (u8s [c]).take 1 = u8s [c] := rfl
        rw [this, bytesOf_u8s]
        simp [stringOfByte, hc]
  | string s hs hn =>
    have hsl : 0 < s.length := List.length_pos_iff.mpr hs
    refine ⟨.char, ?_, by simpa using hsl, ?_, ?_⟩
    · rw [getDimLengths, if_neg]
      · simp
      · rintro ⟨h1, h2⟩
        rcases hn with hn | hn
        · exact hn h1
        · rw [h2] at hn; simp at hn
    · simp [NeedsV5, GoVal.ty, baseKind, NcType.isV5]
    · have ha : StrArray s.length [] (.str s) := ⟨s, rfl, Nat.le_refl _⟩
      have hst : storeVal ⟨name, .str s, .char, [s.length], dims', attrs⟩
          = .ok ((leaves 0 (.str s)).flatMap (padBytes s.length)) := storeChars_ok ha
      refine ⟨⟨by rw [dataOf_of_store hst]; exact hst, ?_, ?_⟩, ?_⟩
      rotate_left 2
      · rw [dataOf_of_store hst]
        simp [leaves, padBytes, padNul, strOf, rawBytes]
      · rw [dataOf_of_store hst]
        have := chars_length ha
        simpa [NcType.size] using this
      · rw [dataOf_of_store hst]
        have h1 := chars_length ha
        have h2 := nestV_char ha []
        simp only [List.nil_append, List.append_nil, List.length_nil] at h1 h2
        simp only [NcType.readKind, NcType.kind, Option.getD_none]
        rw [← h1, decodeElems_u8, h2]
        simp [mapLeaves, padNul]
  | strings L ds _ hne hpos hL ha hrow =>
    refine ⟨.char, ?_, ?_, ?_, ?_⟩
    · simpa using getDimLengths_str dims.isEmpty hL hne [] ha hpos hrow
    · intro d hd
      rcases List.mem_append.mp hd with hd | hd
      · exact hpos d hd
      · simp at hd; omega
    · have hb : ∀ ds, baseKind (tyNest .str ds) = none := by
        intro ds
        induction ds with
        | nil => rfl
        | cons d ds ih => simpa [tyNest, baseKind] using ih
      have hty : baseKind v.ty = none := by
        cases ds with
        | nil => exact absurd rfl hne
        | cons d ds =>
          obtain ⟨xs, rfl, _⟩ := ha
          simpa [GoVal.ty, baseKind] using hb ds
      simp [NeedsV5, hty, NcType.isV5]
    · have hst : storeVal ⟨name, v, .char, ds ++ [L], dims', attrs⟩
          = .ok ((leaves ds.length v).flatMap (padBytes L)) := storeChars_ok ha
      have h1 := chars_length ha
      refine ⟨⟨by rw [dataOf_of_store hst]; exact hst, ?_, ?_⟩, ?_⟩
      rotate_left 2
      · have hm := rect_mapLeaves (leaf' := fun x => ∃ s, x = .str s) (f := padNul L) (by
          rintro x ⟨s, rfl, _⟩; exact ⟨_, rfl⟩) ha
        rw [dataOf_of_store hst, rawBytes_rect hm.1, hm.2, List.flatMap_map]
        apply flatMap_congr'
        intro x hx
        obtain ⟨s, rfl, _⟩ := leaves_sat ha x hx
        simp [padBytes, padNul, strOf, rawBytes]
      · rw [dataOf_of_store hst]
        simpa [NcType.size] using h1
      · rw [dataOf_of_store hst]
        simp only [NcType.readKind, NcType.kind, Option.getD_none]
        rw [← h1, decodeElems_u8]
        have h2 := nestV_char ha []
        rwa [List.append_nil] at h2

/-! ### Sequences of calls -/

/-- The saved variable of an `AddVar` call. -/
structure SavedAs (sv : SavedVar) (name : Bytes) (vr : Variable) : Prop where
  name : sv.name = name
  attrs : sv.attrs = vr.attributes
  back : ∀ shape w, Supported (!vr.dimensions.isEmpty) vr.values shape w →
    sv.dimLengths = shape ∧ DataOK sv w ∧ dataOf sv = rawBytes w
  dims : ∃ extra, sv.dimNames = vr.dimensions ++ extra
  given : sv.dimLengths.length ≤ vr.dimensions.length → sv.dimNames = vr.dimensions
  supp : ∃ shape w, Supported (!vr.dimensions.isEmpty) vr.values shape w

/-- What holds after a sequence of successful calls. -/
structure Inv (u : UniTables) (calls : List Call) (cw : Writer) : Prop where
  good : WGood cw
  globals : cw.globalAttrs = lastAttributes calls
  fine : AttrsFine cw.globalAttrs
  valid : hasValidNames u cw.globalAttrs = true
  version : cw.version = 5 ↔ VarsNeedV5 calls
  names : cw.vars.map (·.name) = addedNames calls
  pos : ∀ sv ∈ cw.vars, ∀ d ∈ sv.dimLengths, 0 < d
  data : ∀ sv ∈ cw.vars, ∃ w, DataOK sv w
  saved : ∀ name vr, Call.addVar name vr ∈ calls → ∃ sv ∈ cw.vars, SavedAs sv name vr

theorem inv_init (u : UniTables) : Inv u [] Writer.init where
  good := ⟨Or.inl rfl, by simp [Writer.init], rfl, by simp [Writer.init], rfl,
    by simp [Writer.init], by simp [Writer.init], by simp [Writer.init]⟩
  globals := rfl
  fine := by
    intro om ho
    cases ho
    simp [OMap.empty, OMap.visibleKeys]
  valid := rfl
  version := by simp [Writer.init, VarsNeedV5]
  names := rfl
  pos := by simp [Writer.init]
  data := by simp [Writer.init]
  saved := by simp

theorem dimInv_of_good {cw : Writer} (h : WGood cw) : DimInv cw :=
  ⟨h.nodup, h.lens, h.ids, h.next, h.nul⟩

theorem lastAttributes_append (calls : List Call) (c : Call) :
    lastAttributes (calls ++ [c]) =
      match c with | .addVar _ _ => lastAttributes calls | .addAttributes attrs => attrs := by
  cases c <;> simp only [lastAttributes, List.foldl_append, List.foldl_cons, List.foldl_nil]

theorem addedNames_append (calls : List Call) (c : Call) :
    addedNames (calls ++ [c]) = addedNames calls ++
      match c with | .addVar name _ => [name] | .addAttributes _ => [] := by
  cases c <;> simp [addedNames, List.filterMap_append]

theorem varsNeedV5_append (calls : List Call) (c : Call) :
    VarsNeedV5 (calls ++ [c]) ↔ VarsNeedV5 calls ∨
      ∃ name vr, c = .addVar name vr ∧ (NeedsV5 vr.values ∨ AttrsNeedV5 vr.attributes) := by
  constructor
  · rintro ⟨name, vr, hm, h⟩
    rcases List.mem_append.mp hm with hm | hm
    · exact Or.inl ⟨name, vr, hm, h⟩
    · simp only [List.mem_singleton] at hm
      exact Or.inr ⟨name, vr, hm.symm, h⟩
  · rintro (⟨name, vr, hm, h⟩ | ⟨name, vr, rfl, h⟩)
    · exact ⟨name, vr, by simp [hm], h⟩
    · exact ⟨name, vr, by simp, h⟩

theorem fill_hidden {u : UniTables} {om : OMap GoVal}
    (h : hasValidNames u (some om) = true) : ascii "_FillValue" ∉ om.visibleKeys := by
  intro hm
  simp only [hasValidNames, List.all_eq_true] at h
  have h1 := h _ hm
  have : ascii "_FillValue" = 95 :: ascii "FillValue" := by decide
  rw [this, C07_rejected_underscore] at h1
  cases h1

/-- What a successful `AddVar` does. -/
theorem addVar_ok {u : UniTables} {cw cw' : Writer} {name : Bytes} {vr : Variable}
    (hfine : AttrsFine vr.attributes) {shape : List Nat} {ty : NcType}
    (hgd : getDimLengths vr.dimensions.isEmpty vr.values [] = .ok (shape, ty))
    (h : cw.addVar u name vr = (cw', .ok ())) :
    isValidName u name = true ∧ hasValidNames u vr.attributes = true ∧
    ∃ cw0 cw1 dims', cw0 = { cw with version := (checkV5Attributes cw.version vr.attributes).1 } ∧
      Writer.addDims name ty shape 0
        { cw0 with version := if ty.isV5 then 5 else cw0.version } vr.dimensions
          = (cw1, .ok dims') ∧
      cw' = { cw1 with vars := cw1.vars ++
        [⟨name, vr.values, ty, shape, dims', vr.attributes⟩] } := by
  unfold Writer.addVar at h
  have hck := checkV5_ok (version := cw.version) hfine
  split at h
  · cases h
  · rename_i hn
    split at h
    · cases h
    · rename_i ha
      refine ⟨by simpa using hn, by simpa using ha, ?_⟩
      have hc : checkV5Attributes cw.version vr.attributes
          = ((checkV5Attributes cw.version vr.attributes).1, .ok ()) := by
        by_cases h5 : AttrsNeedV5 vr.attributes
        · rw [hck.1 h5]
        · rw [hck.2 h5]
      rw [hc] at h
      simp only [hgd] at h
      split at h
      · cases h
      · cases h
      · rename_i cw1 dims' hd
        cases h
        exact ⟨_, cw1, dims', rfl, hd, rfl⟩

theorem inv_step {u : UniTables} {calls : List Call} {cw cw' : Writer} {c : Call}
    (h : Inv u calls cw) (hf : FineCall c) (hs : step u cw c = (cw', .ok ())) :
    Inv u (calls ++ [c]) cw' := by
  classical
  cases c with
  | addAttributes attrs =>
    simp only [step, Writer.addAttributes] at hs
    split at hs
    · cases hs
    · rename_i hv
      cases hs
      exact {
        good := ⟨h.good.version, h.good.nodup, h.good.lens, h.good.ids, h.good.next, h.good.nul,
          h.good.used, fun sv hsv => let g := h.good.vars sv hsv
            ⟨g.name, g.dims, g.reg, g.attrs, g.fill, g.v5⟩⟩
        globals := by rw [lastAttributes_append]
        fine := hf
        valid := by simpa using hv
        version := by
          rw [varsNeedV5_append]
          simp only [reduceCtorEq, false_and, exists_false, or_false]
          exact h.version
        names := by rw [addedNames_append, h.names]; simp
        pos := h.pos
        data := h.data
        saved := by
          intro name vr hm
          rcases List.mem_append.mp hm with hm | hm
          · exact h.saved name vr hm
          · simp at hm }
  | addVar name vr =>
    obtain ⟨⟨shape, w, hsup⟩, hnames, hattrs⟩ := hf
    obtain ⟨ty, hgd, hpos, hty5, _, _⟩ := supported_ok (name := name) (dims' := []) (attrs := none) hsup
    obtain ⟨hvn, hva, cw0, cw1, dims', hcw0, hadd, hcw'⟩ := addVar_ok hattrs hgd hs
    have hnul := nulFree_of_valid hvn
    -- the version after the call
    have hv0 : cw0.version = if AttrsNeedV5 vr.attributes then 5 else cw.version := by
      have hck := checkV5_ok (version := cw.version) hattrs
      rw [hcw0]
      by_cases h5 : AttrsNeedV5 vr.attributes
      · simp [hck.1 h5, h5]
      · simp [hck.2 h5, h5]
    have hinv0 : DimInv { cw0 with version := if ty.isV5 then 5 else cw0.version } := by
      have := dimInv_of_good h.good
      rw [hcw0]
      exact ⟨this.nodup, this.lens, this.ids, this.next, this.nul⟩
    obtain ⟨hinv1, hext, hpre, hlen, hgiven, hall, hreg⟩ :=
      addDims_ok hnul shape 0 _ cw1 vr.dimensions dims' hinv0 (Nat.zero_le _)
        (fun n hn => hnames n hn) hadd
    simp only [Nat.zero_add, List.drop_zero] at hext hlen hgiven hreg
    have hver1 : cw1.version = if ty.isV5 = true ∨ AttrsNeedV5 vr.attributes then 5
        else cw.version := by
      rw [hext.version]
      simp only
      by_cases h1 : ty.isV5 = true
      · simp [h1]
      · simp [h1, hv0]
    have hle : cw.version ≤ cw1.version := by
      rw [hver1]
      have := h.good.version
      split <;> omega
    have h25 : cw1.version = 2 ∨ cw1.version = 5 := by
      rw [hver1]
      have := h.good.version
      split <;> omega
    have hvars : cw1.vars = cw.vars := by rw [hext.vars, hcw0]
    have hglob : cw1.globalAttrs = cw.globalAttrs := by rw [hext.attrs, hcw0]
    obtain ⟨ty2, hgd2, _, _, hdok, hraw⟩ := supported_ok (name := name) (dims' := dims')
      (attrs := vr.attributes) hsup
    have hty2 : ty2 = ty := by rw [hgd] at hgd2; cases hgd2; rfl
    subst hty2
    let sv : SavedVar := ⟨name, vr.values, ty2, shape, dims', vr.attributes⟩
    have hsvgood : SvGood cw' sv := by
      subst hcw'
      refine ⟨hnul, hlen, ?_, ?_, ?_, ?_⟩
      · intro i hi
        exact hreg i hi (Nat.lt_of_lt_of_le hi hlen)
      · apply attrsGood_of_fine hattrs hva
        intro h5
        simp only
        rw [hver1, if_pos (Or.inr h5)]
      · intro om ho
        have ho' : vr.attributes = some om := ho
        rw [ho'] at hva
        exact fill_hidden hva
      · intro h5
        simp only
        rw [hver1, if_pos (Or.inl h5)]
    have hold : ∀ s ∈ cw.vars, SvGood cw' s := by
      intro s hs'
      have g := h.good.vars s hs'
      subst hcw'
      refine ⟨g.name, g.dims, ?_, g.attrs.mono hle, g.fill, ?_⟩
      · intro i hi
        apply hext.ext
        have := g.reg i hi
        rw [hcw0]
        exact this
      · intro h5
        have := g.v5 h5
        simp only
        omega
    have hmemv : ∀ s, s ∈ cw'.vars ↔ s ∈ cw.vars ∨ s = sv := by
      intro s
      rw [hcw', hvars]
      simp [sv]
    exact {
      good := {
        version := by rw [hcw']; exact h25
        nodup := by rw [hcw']; exact hinv1.nodup
        lens := by rw [hcw']; exact hinv1.lens
        ids := by subst hcw'; exact hinv1.ids
        next := by rw [hcw']; exact hinv1.next
        nul := by rw [hcw']; exact hinv1.nul
        used := by
          intro n hn
          have hn' : n ∈ cw1.dimNames := by rw [hcw'] at hn; exact hn
          rcases hext.names n hn' with hm | hm
          · rw [hcw0] at hm
            obtain ⟨s, hs1, hs2⟩ := h.good.used n hm
            exact ⟨s, (hmemv s).mpr (Or.inl hs1), hs2⟩
          · exact ⟨sv, (hmemv sv).mpr (Or.inr rfl), hm⟩
        vars := by
          intro s hs'
          rcases (hmemv s).mp hs' with hs' | rfl
          · exact hold s hs'
          · exact hsvgood }
      globals := by rw [hcw', lastAttributes_append]; simp only; rw [hglob, h.globals]
      fine := by rw [hcw']; simp only; rw [hglob]; exact h.fine
      valid := by rw [hcw']; simp only; rw [hglob]; exact h.valid
      version := by
        rw [hcw', varsNeedV5_append]
        simp only
        rw [hver1, ← h.version]
        have h25 := h.good.version
        constructor
        · intro hc
          split at hc
          · rename_i h5
            right
            refine ⟨name, vr, rfl, ?_⟩
            rcases h5 with h5 | h5
            · exact Or.inl (hty5.mp h5)
            · exact Or.inr h5
          · exact Or.inl hc
        · rintro (hc | ⟨n', vr', he, h5⟩)
          · split
            · rfl
            · exact hc
          · cases he
            rw [if_pos]
            rcases h5 with h5 | h5
            · exact Or.inl (hty5.mpr h5)
            · exact Or.inr h5
      names := by rw [hcw', addedNames_append]; simp [hvars, h.names]
      pos := by
        intro s hs'
        rcases (hmemv s).mp hs' with hs' | rfl
        · exact h.pos s hs'
        · exact hpos
      data := by
        intro s hs'
        rcases (hmemv s).mp hs' with hs' | rfl
        · exact h.data s hs'
        · exact ⟨w, hdok⟩
      saved := by
        intro n' vr' hm
        rcases List.mem_append.mp hm with hm | hm
        · obtain ⟨s, hs1, hs2⟩ := h.saved n' vr' hm
          exact ⟨s, (hmemv s).mpr (Or.inl hs1), hs2⟩
        · simp only [List.mem_singleton, Call.addVar.injEq] at hm
          obtain ⟨rfl, rfl⟩ := hm
          refine ⟨sv, (hmemv sv).mpr (Or.inr rfl), rfl, rfl, ?_, hpre, hgiven, ⟨shape, w, hsup⟩⟩
          intro shape' w' hsup'
          obtain ⟨ty3, hgd3, _, _, hdok3, hraw3⟩ := supported_ok (name := n') (dims' := dims')
            (attrs := vr'.attributes) hsup'
          rw [hgd] at hgd3
          cases hgd3
          exact ⟨rfl, hdok3, hraw3⟩ }

theorem inv_run {u : UniTables} (cs : List Call) : ∀ {calls : List Call} {cw cw' : Writer},
    Inv u calls cw → (∀ c ∈ cs, FineCall c) → runAll u cs cw = some cw' →
    Inv u (calls ++ cs) cw' := by
  induction cs with
  | nil =>
    intro calls cw cw' h _ hr
    simp only [runAll, Option.some.injEq] at hr
    subst hr
    simpa using h
  | cons c cs ih =>
    intro calls cw cw' h hf hr
    rw [runAll] at hr
    split at hr
    · rename_i cw1 hs
      have := ih (inv_step h (hf c (by simp)) hs) (fun c' hc' => hf c' (by simp [hc'])) hr
      simpa using this
    · cases hr

end Verif.Cdf
