import Verif.Lemmas.CdfEnc
import Verif.Spec.CdfWrite
/-!
Attribute lists: what the writer emits, how long it is, and what the reader makes of it.
-/
namespace Verif.Cdf

/-- Number of elements of an attribute value. -/
def attrCount : GoVal → Nat
  | .str s => s.length
  | .slice _ xs => xs.length
  | _ => 1

/-- The external type of an attribute value. -/
def attrType : GoVal → NcType
  | .num k _ => kindType k
  | .slice (.num k) _ => kindType k
  | _ => .char

/-- The bits of a number. -/
def bitsOf : GoVal → Nat
  | .num _ b => b
  | _ => 0

/-- The data bytes of an attribute value. -/
def attrBytes : GoVal → Bytes
  | .str s => s
  | .num k bits => beEnc k.size bits
  | .slice (.num k) xs => xs.flatMap (fun x => beEnc k.size (bitsOf x))
  | _ => []

theorem elemBytes_ok {k : Kind} {v : GoVal} (h : NumVal k v) :
    elemBytes k v = .ok (beEnc k.size (bitsOf v)) := by
  obtain ⟨b, rfl, _⟩ := h
  simp [elemBytes, bitsOf]

theorem concatRes_ok {α : Type} (f : α → Res Bytes) (g : α → Bytes) (xs : List α)
    (h : ∀ x ∈ xs, f x = .ok (g x)) : concatRes (xs.map f) = .ok (xs.flatMap g) := by
  induction xs with
  | nil => rfl
  | cons x xs ih =>
    simp only [List.map_cons, concatRes, h x (by simp), ih (fun y hy => h y (by simp [hy]))]
    simp

theorem decodeElems_flatMap (k : Kind) (xs : List GoVal) (h : ∀ x ∈ xs, NumVal k x)
    (rest : Bytes) :
    decodeElems k xs.length (xs.flatMap (fun x => beEnc k.size (bitsOf x)) ++ rest) = xs := by
  induction xs with
  | nil => rfl
  | cons x xs ih =>
    obtain ⟨b, hb, hlt⟩ := h x (by simp)
    subst hb
    have hbits : bitsOf (.num k b) = b := rfl
    simp only [List.flatMap_cons, List.length_cons, decodeElems, hbits, List.append_assoc]
    have hl : (beEnc k.size b).length = k.size := beEnc_length _ _
    rw [List.take_left' hl, List.drop_left' hl, beDec_beEnc_of_lt hlt,
      ih (fun y hy => h y (by simp [hy]))]

theorem flatMap_length_const {α : Type} (xs : List α) (f : α → Bytes) (n : Nat)
    (h : ∀ x ∈ xs, (f x).length = n) : (xs.flatMap f).length = xs.length * n := by
  induction xs with
  | nil => simp
  | cons x xs ih =>
    simp only [List.flatMap_cons, List.length_append, List.length_cons, h x (by simp),
      ih (fun y hy => h y (by simp [hy]))]
    rw [Nat.add_mul]; omega

theorem attrParts_ok {v : GoVal} (h : AttrVal v) :
    attrParts v = some (attrType v, attrCount v, .ok (attrBytes v)) := by
  cases v with
  | num k bits => simp [attrParts, attrType, attrCount, attrBytes, elemBytes]
  | str s => rfl
  | slice e xs =>
    cases e with
    | num k =>
      simp only [attrParts, attrType, attrCount, attrBytes]
      rw [concatRes_ok _ _ _ (fun x hx => elemBytes_ok (h x hx))]
    | str => exact absurd h (by simp [AttrVal])
    | slice t => exact absurd h (by simp [AttrVal])
    | other b => exact absurd h (by simp [AttrVal])
  | other b => exact absurd h (by simp [AttrVal])
  | user u => exact absurd h (by simp [AttrVal])

theorem attrBytes_length {v : GoVal} (h : AttrVal v) :
    (attrBytes v).length = attrCount v * (attrType v).size := by
  cases v with
  | num k bits => simp [attrType, attrCount, attrBytes, kindType_size]
  | str s => simp [attrType, attrCount, attrBytes, NcType.size]
  | slice e xs =>
    cases e with
    | num k =>
      simp only [attrType, attrCount, attrBytes, kindType_size]
      exact flatMap_length_const _ _ _ (fun x _ => by simp)
    | str => exact absurd h (by simp [AttrVal])
    | slice t => exact absurd h (by simp [AttrVal])
    | other b => exact absurd h (by simp [AttrVal])
  | other b => exact absurd h (by simp [AttrVal])
  | user u => exact absurd h (by simp [AttrVal])

theorem attrOf_ok {v : GoVal} (h : AttrVal v) :
    attrOf (attrType v) (attrCount v) (attrBytes v) = unwrapOne v := by
  cases v with
  | num k bits =>
    simp only [attrOf, attrType, kindType_kind, attrCount, attrBytes]
    have := decodeElems_flatMap k [.num k bits] (by
      intro x hx; simp at hx; exact ⟨bits, hx, h⟩) []
    simp [bitsOf] at this
    rw [this]
    rfl
  | str s => rfl
  | slice e xs =>
    cases e with
    | num k =>
      simp only [attrOf, attrType, kindType_kind, attrCount, attrBytes]
      have := decodeElems_flatMap k xs h []
      simp only [List.append_nil] at this
      rw [this]
    | str => exact absurd h (by simp [AttrVal])
    | slice t => exact absurd h (by simp [AttrVal])
    | other b => exact absurd h (by simp [AttrVal])
  | other b => exact absurd h (by simp [AttrVal])
  | user u => exact absurd h (by simp [AttrVal])

/-- An attribute entry. -/
def encEntry (version : Nat) (k : Bytes) (v : GoVal) : Bytes :=
  encAttr version k (attrType v) (attrCount v) (attrBytes v)

/-- The entries of an attribute map, in order. -/
def entries (om : OMap GoVal) : List (Bytes × GoVal) :=
  om.visibleKeys.map (fun k => (k, (om.get k).getD (.other false)))

/-- An attribute list. -/
def encAttrs (version : Nat) (attrs : Attrs) : Bytes :=
  match attrs with
  | none => beEnc 4 0 ++ encNum version 0
  | some om =>
    if om.visibleKeys.length = 0 then beEnc 4 0 ++ encNum version 0
    else beEnc 4 fieldAttribute ++ (encNum version om.visibleKeys.length ++
      (entries om).flatMap (fun kv => encEntry version kv.1 kv.2))

/-- An entry that a file of this version can hold. -/
structure EntryOK (version : Nat) (k : Bytes) (v : GoVal) : Prop where
  nul : NulFree k
  len : NumOK version k.length
  len63 : k.length < 2 ^ 63
  val : AttrVal v
  count : NumOK version (attrCount v)
  v5 : (attrType v).isV5 = true → 5 ≤ version

/-- An attribute map that a file of this version can hold. -/
def AttrsOK (version : Nat) (attrs : Attrs) : Prop :=
  ∀ om, attrs = some om → om.visibleKeys.Nodup ∧ NumOK version om.visibleKeys.length ∧
    ∀ k ∈ om.visibleKeys, ∃ v, om.get k = some v ∧ EntryOK version k v

/-- The values of an attribute map are of types that CDF attributes can have. -/
def AttrsVals (attrs : Attrs) : Prop :=
  ∀ om, attrs = some om → ∀ k ∈ om.visibleKeys, ∃ v, om.get k = some v ∧ AttrVal v

theorem encEntry_mod (version : Nat) (k : Bytes) (v : GoVal) :
    (encEntry version k v).length % 4 = 0 := encAttr_mod _ _ _ _ _

theorem flatMap_mod {α : Type} (xs : List α) (f : α → Bytes)
    (h : ∀ x ∈ xs, (f x).length % 4 = 0) : (xs.flatMap f).length % 4 = 0 := by
  induction xs with
  | nil => rfl
  | cons x xs ih =>
    have h1 := h x (by simp)
    have h2 := ih (fun y hy => h y (by simp [hy]))
    simp only [List.flatMap_cons, List.length_append]; omega

theorem encAttrs_mod (version : Nat) (attrs : Attrs) : (encAttrs version attrs).length % 4 = 0 := by
  unfold encAttrs
  have h1 := encNum_mod version 0
  split
  · simp only [List.length_append, beEnc_length]; omega
  · rename_i om
    split
    · simp only [List.length_append, beEnc_length]; omega
    · have h2 := encNum_mod version om.visibleKeys.length
      have h3 := flatMap_mod (entries om) (fun kv => encEntry version kv.1 kv.2)
        (fun x _ => encEntry_mod _ _ _)
      simp only [List.length_append, beEnc_length]; omega

theorem writeAttr_eq {version : Nat} {om : OMap GoVal} {k : Bytes} {v : GoVal} {out : Bytes}
    (hv : om.get k = some v) (h : AttrVal v) (ho : out.length % 4 = 0) :
    writeAttr version om k out = .ok (out ++ encEntry version k v) := by
  unfold writeAttr
  simp only [hv, Option.bind_some, attrParts_ok h, Res.bind_ok, Res.pure_eq]
  rw [writeName_eq version k out ho]
  simp only [write32, writeNumber_eq, writeBytes]
  have hm : ((out ++ encName version k ++ beEnc 4 (attrType v).code) ++
      encNum version (attrCount v)).length % 4 = 0 := by
    have h1 := encName_mod version k
    have h2 := encNum_mod version (attrCount v)
    simp only [List.length_append, beEnc_length]; omega
  split
  · rw [pad_append _ _ hm]
    simp [encEntry, encAttr]
  · rename_i hp
    have hp' := NcType.padded_of_mod (attrType v) (by simpa using hp)
    have hz : (attrBytes v).length % 4 = 0 := by
      rw [attrBytes_length h, Nat.mul_mod, hp']; simp
    simp [encEntry, encAttr, padding_zero _ hz]

theorem writeAttrLoop_eq {version : Nat} {om : OMap GoVal} (ks : List Bytes) {out : Bytes}
    (h : ∀ k ∈ ks, ∃ v, om.get k = some v ∧ AttrVal v) (ho : out.length % 4 = 0) :
    writeAttrLoop version om ks out = .ok (out ++
      (ks.map (fun k => (k, (om.get k).getD (.other false)))).flatMap
        (fun kv => encEntry version kv.1 kv.2)) := by
  induction ks generalizing out with
  | nil => simp [writeAttrLoop]
  | cons k ks ih =>
    obtain ⟨v, hv, hav⟩ := h k (by simp)
    have hm := encEntry_mod version k v
    rw [writeAttrLoop, writeAttr_eq hv hav ho, Res.bind_ok,
      ih (fun k' hk' => h k' (by simp [hk'])) (by simp only [List.length_append]; omega)]
    simp [hv]

theorem writeAttributes_eq {version : Nat} {attrs : Attrs} {out : Bytes}
    (h : AttrsVals attrs) (ho : out.length % 4 = 0) :
    writeAttributes version attrs out = .ok (out ++ encAttrs version attrs) := by
  unfold writeAttributes encAttrs
  cases attrs with
  | none => simp [write32, writeNumber_eq]
  | some om =>
    simp only
    split
    · simp [write32, writeNumber_eq]
    · simp only [write32, writeNumber_eq]
      rw [writeAttrLoop_eq om.visibleKeys]
      · simp [entries]
      · exact h om rfl
      · have := encNum_mod version om.visibleKeys.length
        simp only [List.length_append, beEnc_length]; omega

/-- What the reader returns for an attribute map that was written. -/
def readBack (attrs : Attrs) : OMap GoVal :=
  match attrs with
  | none => OMap.empty
  | some om =>
    { keys := om.visibleKeys
      values := (entries om).map (fun kv => (kv.1, unwrapOne kv.2))
      visible := om.visibleKeys
      hidden := [] }

theorem foldl_set_nodup {α : Type} (kvs : List (Bytes × α)) (m : GoMap α)
    (h : (GoMap.keys m ++ kvs.map (·.1)).Nodup) :
    kvs.foldl (fun m kv => GoMap.set m kv.1 kv.2) m = m ++ kvs := by
  induction kvs generalizing m with
  | nil => simp
  | cons kv kvs ih =>
    have hn : kv.1 ∉ GoMap.keys m := by
      intro hm
      rw [List.nodup_append] at h
      exact h.2.2 _ hm kv.1 (by simp) rfl
    simp only [List.foldl_cons, GoMap.set_of_not_mem m kv.1 kv.2 hn]
    rw [ih]
    · simp
    · simp only [GoMap.keys, List.map_append, List.map_cons, List.map_nil, List.append_assoc,
        List.singleton_append] at h ⊢
      exact h

theorem omap_new_ok {α : Type} (kvs : List (Bytes × α)) :
    OMap.new (kvs.map (·.1)) kvs
      = .ok { keys := kvs.map (·.1), values := kvs, visible := kvs.map (·.1), hidden := [] } := by
  simp [OMap.new, GoMap.keys]

theorem reads_getNElems {version expected n : Nat} (he : expected < 2 ^ 32) (h0 : expected ≠ 0)
    (hn : NumOK version n) :
    Reads (getNElems version expected) (beEnc 4 expected ++ encNum version n) n := by
  unfold getNElems
  refine Reads.bind (reads_read32 he) ?_
  rw [← List.append_nil (encNum version n)]
  refine Reads.bind (reads_readNumber hn) ?_
  simp only [h0, if_false, if_true]
  exact Reads.pure n

theorem NumOK_zero (version : Nat) : NumOK version 0 := by unfold NumOK; split <;> omega

theorem reads_getNElems_absent {version expected : Nat} :
    Reads (getNElems version expected) (beEnc 4 0 ++ encNum version 0) 0 := by
  unfold getNElems
  refine Reads.bind (reads_read32 (by omega)) ?_
  rw [← List.append_nil (encNum version 0)]
  refine Reads.bind (reads_readNumber (NumOK_zero version)) ?_
  simp only [if_true]
  exact Reads.bind_nil (reads_assert (by simp)) (Reads.pure 0)

theorem reads_getAttrList {ma version : Nat} {attrs : Attrs} (h : AttrsOK version attrs)
    (hma : (encAttrs version attrs).length ≤ ma) :
    Reads (getAttrList ma version) (encAttrs version attrs) (readBack attrs) := by
  have habs : Reads (getAttrList ma version) (beEnc 4 0 ++ encNum version 0) OMap.empty := by
    unfold getAttrList
    rw [← List.append_nil (beEnc 4 0 ++ encNum version 0)]
    refine Reads.bind reads_getNElems_absent ?_
    refine Reads.bind_nil (a := []) (Reads.pure []) ?_
    exact reads_lift (by rfl)
  cases attrs with
  | none => exact habs
  | some om =>
    obtain ⟨hnd, hnum, hk⟩ := h om rfl
    unfold encAttrs at hma ⊢
    simp only at hma ⊢
    split
    · rename_i hz
      have : readBack (some om) = OMap.empty := by
        have hz' : om.visibleKeys = [] := List.length_eq_zero_iff.mp hz
        simp [readBack, entries, hz', OMap.empty]
      rw [this]
      exact habs
    · rename_i hz
      simp only [hz, if_false, List.length_append] at hma
      unfold getAttrList
      rw [← List.append_assoc]
      refine Reads.bind (reads_getNElems (by decide) (by decide) hnum) ?_
      have hent : ∀ x ∈ entries om, EntryOK version x.1 x.2 := by
        intro x hx
        simp only [entries, List.mem_map] at hx
        obtain ⟨k, hkm, rfl⟩ := hx
        obtain ⟨v, hv, hok⟩ := hk k hkm
        simp only [hv, Option.getD_some]
        exact hok
      have hlen : ∀ x ∈ entries om, (encEntry version x.1 x.2).length ≤ ma := by
        intro x hx
        have : (encEntry version x.1 x.2).length ≤
            ((entries om).flatMap (fun kv => encEntry version kv.1 kv.2)).length := by
          obtain ⟨a, b, hab⟩ := List.append_of_mem hx
          rw [hab]
          simp only [List.flatMap_append, List.flatMap_cons, List.length_append]
          omega
        omega
      have hr := reads_repeat (p := getAttr ma version)
        (encs := (entries om).map (fun kv => (encEntry version kv.1 kv.2, (kv.1, unwrapOne kv.2))))
        (by
          intro x hx
          simp only [List.mem_map] at hx
          obtain ⟨kv, hkv, rfl⟩ := hx
          have e := hent kv hkv
          have := reads_getAttr (ma := ma) e.len e.len63 e.nul e.v5 e.count
            (attrBytes_length e.val) (hlen kv hkv)
          rw [attrOf_ok e.val] at this
          exact this)
      have hl : ((entries om).map (fun kv => (encEntry version kv.1 kv.2,
          (kv.1, unwrapOne kv.2)))).length = om.visibleKeys.length := by simp [entries]
      rw [hl] at hr
      simp only [List.map_map, List.flatMap_map] at hr
      rw [← List.append_nil (List.flatMap _ (entries om))]
      refine Reads.bind hr ?_
      apply reads_lift
      have e1 : ∀ l : List (Bytes × GoVal), l.map ((fun x => x.2) ∘ fun kv =>
          (encEntry version kv.1 kv.2, (kv.1, unwrapOne kv.2)))
          = l.map (fun kv => (kv.1, unwrapOne kv.2)) := fun l => rfl
      rw [e1, foldl_set_nodup]
      · rw [List.nil_append, omap_new_ok]
        simp [readBack, entries, Function.comp_def]
      · simp [GoMap.keys, entries, Function.comp_def, hnd]

/-! ### Sizes -/

theorem lengthSize_eq {version : Nat} (hv : version = 2 ∨ version = 5) (n : Nat) :
    (encNum version n).length = lengthSize version := by
  rcases hv with rfl | rfl <;> simp [encNum, lengthSize]

theorem encName_length {version : Nat} (hv : version = 2 ∨ version = 5) (s : Bytes) :
    (encName version s).length = roundInt64 (lengthSize version + s.length) := by
  have h1 := lengthSize_eq hv s.length
  have h2 : lengthSize version % 4 = 0 := by rcases hv with rfl | rfl <;> rfl
  simp only [encName, List.length_append, h1, padding, List.length_replicate, roundInt64]
  omega

theorem attrSizeLoop_eq {version : Nat} (hv : version = 2 ∨ version = 5) {om : OMap GoVal}
    (ks : List Bytes) (count : Nat) (hc : count % 4 = 0)
    (h : ∀ k ∈ ks, ∃ v, om.get k = some v ∧ AttrVal v) :
    attrSizeLoop version om ks count = .ok (count +
      ((ks.map (fun k => (k, (om.get k).getD (.other false)))).flatMap
        (fun kv => encEntry version kv.1 kv.2)).length) := by
  induction ks generalizing count with
  | nil => simp [attrSizeLoop]
  | cons k ks ih =>
    obtain ⟨v, hg, hav⟩ := h k (by simp)
    simp only [attrSizeLoop, hg, Option.bind_some, attrParts_ok hav]
    have h2 : lengthSize version % 4 = 0 := by rcases hv with rfl | rfl <;> rfl
    have he : (encEntry version k v).length
        = roundInt64 (lengthSize version + k.length) + 4 + lengthSize version +
          roundInt64 ((attrType v).size * attrCount v) := by
      simp only [encEntry, encAttr, List.length_append, encName_length hv, beEnc_length,
        lengthSize_eq hv, attrBytes_length hav, padding, List.length_replicate]
      rw [Nat.mul_comm (attrCount v)]
      simp only [roundInt64]
      omega
    have hr : ∀ a b, a % 4 = 0 → roundInt64 (a + b) = a + roundInt64 b := by
      intro a b ha; unfold roundInt64; omega
    have hrm : ∀ a, roundInt64 a % 4 = 0 := by intro a; unfold roundInt64; omega
    have hra : roundInt64 (count + lengthSize version + k.length)
        = count + roundInt64 (lengthSize version + k.length) := by
      rw [Nat.add_assoc, hr _ _ hc]
    have hm1 := hrm (lengthSize version + k.length)
    have hm2 := hrm ((attrType v).size * attrCount v)
    rw [hra, hr _ _ (by omega), ih _ (by omega) (fun k' hk' => h k' (by simp [hk']))]
    simp only [List.map_cons, List.flatMap_cons, List.length_append, hg, Option.getD_some, he]
    congr 1
    omega

theorem computeAttributeSize_eq {version : Nat} (hv : version = 2 ∨ version = 5) {attrs : Attrs}
    (h : AttrsVals attrs) :
    computeAttributeSize version attrs = .ok (encAttrs version attrs).length := by
  have h2 : lengthSize version % 4 = 0 := by rcases hv with rfl | rfl <;> rfl
  unfold computeAttributeSize encAttrs
  cases attrs with
  | none => simp [lengthSize_eq hv]
  | some om =>
    simp only
    rw [attrSizeLoop_eq hv om.visibleKeys _ (by omega) (h om rfl)]
    split
    · rename_i hz
      have hz' : om.visibleKeys = [] := List.length_eq_zero_iff.mp hz
      simp [hz', lengthSize_eq hv]
    · simp only [List.length_append, beEnc_length, lengthSize_eq hv, entries]
      congr 1
      omega

end Verif.Cdf
