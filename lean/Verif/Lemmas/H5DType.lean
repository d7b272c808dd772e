import Verif.Spec.H5Header
import Verif.Lemmas.H5Parses
import Verif.Lemmas.H5Format
/-!
Reading datatype messages of other programs.
-/
namespace Verif.H5
open Fmt

theorem dtHead_ok {l : Bool} {cls ver bits size : Nat} (f : Nat) {body : Bytes} {a : DT}
    (hc : cls ≤ 10) (hv : 1 ≤ ver ∧ ver ≤ 4) (hs : 0 < size ∧ size < 2 ^ 32)
    (h : PL l (parseClass (parseDT f) (cls + 16 * ver) (bits % 256) (bits / 256 % 256) size) body a) :
    PL l (parseDT (f + 1)) (dtHead cls ver bits size ++ body) a := by
  intro q rest hr
  have e3 : num 3 bits = UInt8.ofNat (bits % 256) :: UInt8.ofNat (bits / 256 % 256) ::
      UInt8.ofNat (bits / 256 / 256 % 256) :: [] := rfl
  have e1 : num 1 (cls + 16 * ver) = [UInt8.ofNat ((cls + 16 * ver) % 256)] := rfl
  have hb : (UInt8.ofNat ((cls + 16 * ver) % 256)).toNat = cls + 16 * ver := by
    rw [toNat_ofNat_small (by omega)]
    omega
  simp only [dtHead, e1, e3, List.append_assoc, List.cons_append, List.nil_append]
  rw [num_eq]
  rw [parseDT_head f q size _ _ _ _ _ hs.2 (by omega) (by rw [hb]; omega) (by rw [hb]; omega)
    (by rw [hb]; omega), hb, toNat_ofNat_small (by omega),
    toNat_ofNat_small (by omega), h _ _ hr]
  simp only [List.length_append, List.length_cons, leEnc_length]
  congr 3
  omega

theorem parseClass_fixed (p : P DT) (v b1 b2 len : Nat) :
    parseClass p (0 + 16 * v) b1 b2 len = parseFixed len b1 := by
  unfold parseClass
  rw [show (0 + 16 * v) % 16 = 0 by omega]
  rfl

theorem parseClass_str (p : P DT) (b1 b2 len : Nat) :
    parseClass p (3 + 16 * 1) b1 b2 len = (do checkVal 1 1; pure (.str len)) := rfl

theorem parseClass_opaque (p : P DT) (v b1 b2 len : Nat) :
    parseClass p (5 + 16 * v) b1 b2 len = parseOpaque len := by
  unfold parseClass
  rw [show (5 + 16 * v) % 16 = 5 by omega]
  rfl

theorem parseClass_compound (p : P DT) (v b1 b2 len : Nat) :
    parseClass p (6 + 16 * v) b1 b2 len = (do
      let r ← parseMembers p v len b1
      pure (.compound len r.1 r.2)) := by
  unfold parseClass
  rw [show (6 + 16 * v) % 16 = 6 by omega, show (6 + 16 * v) / 16 = v by omega]
  rfl

theorem parseClass_enum (p : P DT) (v b1 b2 len : Nat) :
    parseClass p (8 + 16 * v) b1 b2 len = parseEnum p v len b1 := by
  unfold parseClass
  rw [show (8 + 16 * v) % 16 = 8 by omega, show (8 + 16 * v) / 16 = v by omega]
  rfl

theorem parseClass_vlen (p : P DT) (v b1 b2 len : Nat) :
    parseClass p (9 + 16 * v) b1 b2 len = parseVlen p len b1 b2 := by
  unfold parseClass
  rw [show (9 + 16 * v) % 16 = 9 by omega]
  rfl

theorem parseClass_array (p : P DT) (v b1 b2 len : Nat) :
    parseClass p (10 + 16 * v) b1 b2 len = parseArray p v len := by
  unfold parseClass
  rw [show (10 + 16 * v) % 16 = 10 by omega, show (10 + 16 * v) / 16 = v by omega]
  rfl

theorem fixedMsg_ok (f v s : Nat) (sg be : Bool) (hv : 1 ≤ v ∧ v ≤ 4) (hs : IntSize s) :
    Parses (parseDT (f + 1)) (fixedMsg v s sg be) (.fixed s sg be) := by
  unfold fixedMsg
  rw [List.append_assoc]
  have hs' : 0 < s ∧ s ≤ 8 := by unfold IntSize at hs; omega
  refine dtHead_ok f (by omega) hv (by omega) ?_
  rw [parseClass_fixed]
  intro q rest _
  have hr : decide (0 < (num 2 0 ++ num 2 (8 * s) ++ rest).length) = true := by
    simp only [num_eq, List.length_append, leEnc_length]
    exact decide_eq_true (by omega)
  have hb : (s == 1 || s == 2 || s == 4 || s == 8) = true := by
    rcases hs with h | h | h | h <;> simp [h]
  have hz : ((bit 0 be + bit 3 sg) % 256 / 2 % 4 == 0) = true := by cases be <;> cases sg <;> rfl
  have hs1 : ((bit 0 be + bit 3 sg) % 256 / 8 % 2 == 1) = sg := by cases be <;> cases sg <;> rfl
  have hf : ((bit 0 be + bit 3 sg) % 256 % 2 == 1) = be := by cases be <;> cases sg <;> rfl
  simp only [parseFixed, P.bind_apply, remLen_apply, hz, P.assert_true, hr]
  simp only [num_eq, List.append_assoc, read16_zero,
    read16_app _ _ _ (show 8 * s < 65536 by omega), hb, BEq.rfl, P.assert_true, P.pure_apply, hs1, hf,
    List.length_append, leEnc_length]

theorem floatMsg_ok (f s : Nat) (be : Bool) (hs : s = 4 ∨ s = 8) :
    Parses (parseDT (f + 1)) (floatMsg s be) (.float s be) := by
  unfold floatMsg
  rcases hs with rfl | rfl
  · simp only [↓reduceIte, List.append_assoc]
    refine dtHead_ok f (by omega) (by omega) (by omega) ?_
    intro q rest _
    have : parseClass (parseDT f) (1 + 16 * 1) ((bit 0 be + 32 + 256 * 31) % 256)
        ((bit 0 be + 32 + 256 * 31) / 256 % 256) 4 = parseFloat 1 4 (bit 0 be + 32) 31 := by
      cases be <;> rfl
    rw [this]
    have hr : decide (12 ≤ (num 2 0 ++ (num 2 32 ++ (num 1 23 ++ (num 1 8 ++ (num 1 0 ++
        (num 1 23 ++ num 4 127))))) ++ rest).length) = true := by
      simp only [num_eq, List.length_append, leEnc_length]
      exact decide_eq_true (by omega)
    have h1 : ((bit 0 be + 32) / 64 % 2 == 0) = true := by cases be <;> rfl
    have h2 : ((bit 0 be + 32) / 2 % 2 == 0) = true := by cases be <;> rfl
    have h3 : ((bit 0 be + 32) / 4 % 2 == 0) = true := by cases be <;> rfl
    have h4 : ((bit 0 be + 32) / 8 % 2 == 0) = true := by cases be <;> rfl
    have h5 : ((bit 0 be + 32) / 16 % 4 == 2) = true := by cases be <;> rfl
    have h6 : ((bit 0 be + 32) % 2 == 1) = be := by cases be <;> rfl
    simp only [parseFloat, P.bind_apply, remLen_apply, hr, h1, h2, h3, h4, BEq.rfl, P.assert_true]
    simp only [num_eq, List.append_assoc, read16_zero, read16_app _ 32 _ (by omega),
      read8_app _ 23 _ (by omega), read8_app _ 8 _ (by omega), read8_app _ 0 _ (by omega),
      read32_app _ 127 _ (by omega), ↓reduceIte, P.pure_apply, h5, h6, P.assert_true, BEq.rfl,
      Bool.and_self, List.length_append, leEnc_length]
    rfl
  · simp only [show ¬ (8 : Nat) = 4 by omega, ↓reduceIte, List.append_assoc]
    refine dtHead_ok f (by omega) (by omega) (by omega) ?_
    intro q rest _
    have : parseClass (parseDT f) (1 + 16 * 1) ((bit 0 be + 32 + 256 * 63) % 256)
        ((bit 0 be + 32 + 256 * 63) / 256 % 256) 8 = parseFloat 1 8 (bit 0 be + 32) 63 := by
      cases be <;> rfl
    rw [this]
    have hr : decide (12 ≤ (num 2 0 ++ (num 2 64 ++ (num 1 52 ++ (num 1 11 ++ (num 1 0 ++
        (num 1 52 ++ num 4 1023))))) ++ rest).length) = true := by
      simp only [num_eq, List.length_append, leEnc_length]
      exact decide_eq_true (by omega)
    have h1 : ((bit 0 be + 32) / 64 % 2 == 0) = true := by cases be <;> rfl
    have h2 : ((bit 0 be + 32) / 2 % 2 == 0) = true := by cases be <;> rfl
    have h3 : ((bit 0 be + 32) / 4 % 2 == 0) = true := by cases be <;> rfl
    have h4 : ((bit 0 be + 32) / 8 % 2 == 0) = true := by cases be <;> rfl
    have h5 : ((bit 0 be + 32) / 16 % 4 == 2) = true := by cases be <;> rfl
    have h6 : ((bit 0 be + 32) % 2 == 1) = be := by cases be <;> rfl
    simp only [parseFloat, P.bind_apply, remLen_apply, hr, h1, h2, h3, h4, BEq.rfl, P.assert_true]
    simp only [num_eq, List.append_assoc, read16_zero, read16_app _ 64 _ (by omega),
      read8_app _ 52 _ (by omega), read8_app _ 11 _ (by omega), read8_app _ 0 _ (by omega),
      read32_app _ 1023 _ (by omega), ↓reduceIte, P.pure_apply, h5, h6, P.assert_true, BEq.rfl,
      Bool.and_self, List.length_append, leEnc_length, show ¬ (8 : Nat) = 4 by omega]
    rfl

theorem strMsg_ok (f s pad cs : Nat) (hs : 0 < s ∧ s < 2 ^ 32) :
    Parses (parseDT (f + 1)) (dtHead 3 1 (pad + 16 * cs) s) (.str s) := by
  have : Parses (parseDT (f + 1)) (dtHead 3 1 (pad + 16 * cs) s ++ []) (.str s) := by
    refine dtHead_ok f (by omega) (by omega) hs ?_
    rw [parseClass_str]
    exact PL.skip (checkVal_ok rfl) (PL.pure _)
  simpa using this

theorem refMsg_ok (f s k : Nat) (hs : 0 < s ∧ s < 2 ^ 32) (hk : k ≤ 1) :
    Parses (parseDT (f + 1)) (dtHead 7 1 k s) (.ref s) := by
  have : Parses (parseDT (f + 1)) (dtHead 7 1 k s ++ []) (.ref s) := by
    refine dtHead_ok f (by omega) (by omega) hs ?_
    have : parseClass (parseDT f) (7 + 16 * 1) (k % 256) (k / 256 % 256) s = (do
      P.assert true .unsupported
      P.assert (k % 256 % 16 == 0 || k % 256 % 16 == 1) .assertFail
      pure (.ref s)) := rfl
    rw [this]
    refine PL.skip (P.assert_ok _ rfl) (PL.skip (P.assert_ok _ ?_) (PL.pure _))
    rcases Nat.le_one_iff_eq_zero_or_eq_one.mp hk with rfl | rfl <;> rfl
  simpa using this

theorem dropWhile_tag (tag : Bytes) (k : Nat) (h : (0 : UInt8) ∉ tag) :
    ((tag ++ List.replicate k 0).dropWhile (· != 0)).all (· == 0) = true := by
  induction tag with
  | nil => cases k <;> simp [List.replicate_succ]
  | cons a tag ih =>
    simp only [List.mem_cons, not_or] at h
    have ha : (a != 0) = true := by simpa using fun h' => h.1 h'.symm
    rw [List.cons_append, List.dropWhile_cons, if_pos ha]
    exact ih h.2

theorem opaqueMsg_ok (f v s : Nat) (tag : Bytes) (hv : 1 ≤ v ∧ v ≤ 4) (hs : 0 < s ∧ s < 2 ^ 32)
    (ht : (0 : UInt8) ∉ tag) :
    PL true (parseDT (f + 1)) (DType.opaque v s tag).bytes (.opaque s (tag != [])) := by
  rw [DType.bytes, List.append_assoc]
  refine dtHead_ok f (by omega) hv hs ?_
  rw [parseClass_opaque]
  intro q rest hr
  rw [hr rfl, List.append_nil]
  unfold parseOpaque
  rw [P.bind_apply, remLen_apply]
  cases tag with
  | nil => rfl
  | cons a tag =>
    generalize (8 - (a :: tag).length % 8) % 8 = k
    simp only
    rw [if_neg (by simp), P.bind_apply, rdN_all _ _ _ rfl]
    simp only [P.bind_apply]
    rw [P.assert_ok _ (dropWhile_tag _ _ ht)]
    simp [P.pure_apply]

theorem dtName_ok (v : Nat) (n : Bytes) (hv : 1 ≤ v ∧ v ≤ 4) (h : (0 : UInt8) ∉ n) :
    Parses (readName (if v = 1 ∨ v = 2 then 7 else 0)) (dtName v n) n := by
  unfold dtName
  by_cases h2 : v ≤ 2
  · rw [if_pos h2, if_pos (by omega)]
    exact Parses.namePad h
  · rw [if_neg h2, if_neg (by omega), List.append_nil]
    exact Parses.name h

theorem dtNames_ok (v : Nat) (ns : List Bytes) (hv : 1 ≤ v ∧ v ≤ 4) (h : ∀ n ∈ ns, (0 : UInt8) ∉ n) :
    Parses (readNames (if v = 1 ∨ v = 2 then 7 else 0) ns.length) (ns.flatMap (dtName v)) ns := by
  induction ns with
  | nil => exact PL.pure _
  | cons n ns ih =>
    rw [List.flatMap_cons]
    exact PL.bind (dtName_ok v n hv (h n (by simp)))
      (PL.map (ih fun m hm => h m (by simp [hm])) fun s => rfl)

theorem dtVals_ok (s : Nat) (be : Bool) (vs : List Nat) (h : ∀ x ∈ vs, x < 256 ^ s) :
    Parses (readVals s be vs.length) (vs.flatMap (numAs be s)) vs := by
  induction vs with
  | nil => exact PL.pure _
  | cons v vs ih =>
    rw [List.flatMap_cons]
    refine PL.bind (Parses.rdN (b := numAs be s v) (by cases be <;> simp [numAs, num_eq])) ?_
    refine PL.map (ih fun m hm => h m (by simp [hm])) fun t => ?_
    have : (if be then beDec (numAs be s v) else leDec (numAs be s v)) = v := by
      cases be
      · exact leDec_leEnc_of_lt (h v (by simp))
      · exact beDec_beEnc_of_lt (h v (by simp))
    rw [this]
    rfl

theorem enumMsg_ok (f v bv s : Nat) (sg be : Bool) (ns : List Bytes) (vs : List Nat)
    (h : (DType.enum v bv s sg be ns vs).Readable l) :
    Parses (parseDT (f + 2)) (DType.enum v bv s sg be ns vs).bytes
      (DType.enum v bv s sg be ns vs).dt := by
  rw [DType.Readable] at h
  obtain ⟨hv1, hv4, hb1, hb4, hs, hl, hn, hns, hvs⟩ := h
  have hs' : 0 < s ∧ s < 2 ^ 32 := by unfold IntSize at hs; omega
  rw [DType.bytes, DType.dt]
  simp only [List.append_assoc]
  refine dtHead_ok (f + 1) (by omega) ⟨hv1, hv4⟩ hs' ?_
  rw [parseClass_enum, Nat.mod_eq_of_lt (by omega)]
  unfold parseEnum
  refine PL.bind (fixedMsg_ok f bv s sg be ⟨hb1, hb4⟩ hs) ?_
  refine PL.bind (dtNames_ok v ns ⟨hv1, hv4⟩ hns) ?_
  have hb : (s == 1 || s == 2 || s == 4 || s == 8) = true := by
    rcases hs with h | h | h | h <;> simp [h]
  simp only
  rw [hl]
  exact PL.skip (P.assert_ok _ hb) (PL.map (dtVals_ok s be vs hvs) fun t => rfl)

theorem read32s_num (xs : List Nat) (h : ∀ x ∈ xs, x < 2 ^ 32) :
    Parses (read32s xs.length) (xs.flatMap (num 4)) xs := by
  induction xs with
  | nil => exact PL.pure _
  | cons x xs ih =>
    rw [List.flatMap_cons]
    exact PL.bind (Parses.read32 (h x (by simp))) (PL.map (ih fun m hm => h m (by simp [hm])) fun s => rfl)

theorem getD_lt (ds : List Nat) (i : Nat) (h : ∀ d ∈ ds, d < 2 ^ 32) : ds.getD i 0 < 2 ^ 32 := by
  rw [List.getD_eq_getElem?_getD]
  cases e : ds[i]? with
  | none => simp
  | some d => exact h d (List.mem_of_getElem? e)

theorem take_getD (ds : List Nat) (h : ds.length ≤ 4) :
    [ds.getD 0 0, ds.getD 1 0, ds.getD 2 0, ds.getD 3 0].take ds.length = ds := by
  match ds, h with
  | [], _ => rfl
  | [a], _ => rfl
  | [a, b], _ => rfl
  | [a, b, c], _ => rfl
  | [a, b, c, d], _ => rfl
  | _ :: _ :: _ :: _ :: _ :: _, h => simp at h

theorem dtDims_ok (v : Nat) (ds : List Nat) (h4 : v = 1 → ds.length ≤ 4) (h : ∀ d ∈ ds, d < 2 ^ 32) :
    Parses (memberDims v) (dtDims v ds) (if v = 1 then some ds else none) := by
  unfold memberDims dtDims
  by_cases hv : v = 1
  · simp only [hv, ↓reduceIte, num_eq, List.append_assoc]
    refine PL.bind (Parses.read8 (by have := h4 hv; omega)) ?_
    refine PL.bind (Parses.zero 3) ?_
    refine PL.bind (Parses.read32 (by omega)) ?_
    refine PL.skip (P.assert_ok _ rfl) ?_
    refine PL.bind (Parses.read32 (by omega)) ?_
    refine PL.skip (checkVal_ok rfl) ?_
    refine PL.bind (Parses.read32 (getD_lt ds 0 h)) ?_
    refine PL.bind (Parses.read32 (getD_lt ds 1 h)) ?_
    refine PL.bind (Parses.read32 (getD_lt ds 2 h)) ?_
    refine PL.map (Parses.read32 (getD_lt ds 3 h)) fun s => ?_
    rw [if_neg (by have := h4 hv; omega), take_getD ds (h4 hv)]
    rfl
  · simp only [hv, ↓reduceIte]
    exact PL.pure _

theorem offWidth_eq (v s : Nat) (hv : 1 ≤ v ∧ v ≤ 4) : offsetBytes v s = offWidth v s := by
  unfold offsetBytes offWidth
  by_cases h : v ≤ 2
  · rw [if_pos h, if_pos (by omega)]
  · rw [if_neg h, if_neg (by omega)]

theorem readOff_num (w off : Nat) (hw : w = 1 ∨ w = 2 ∨ w = 4 ∨ w = 8) (ho : off < 256 ^ w) :
    Parses (readEnc w) (num w off) off := by
  rcases hw with rfl | rfl | rfl | rfl
  · exact Parses.read8 (by simpa using ho)
  · exact Parses.read16 (by simpa using ho)
  · exact Parses.read32 (by simpa using ho)
  · exact Parses.read64 (by simpa using ho)

theorem offWidth_cases (v s : Nat) (h : offWidth v s ≠ 3) :
    offWidth v s = 1 ∨ offWidth v s = 2 ∨ offWidth v s = 4 ∨ offWidth v s = 8 := by
  unfold offWidth at h ⊢
  by_cases h2 : v ≤ 2
  · simp [h2]
  · by_cases h3 : s < 256
    · simp [h2, h3]
    · by_cases h4 : s < 65536
      · simp [h2, h3, h4]
      · by_cases h5 : s < 16777216
        · simp [h2, h3, h4, h5] at h
        · simp [h2, h3, h4, h5]

mutual
/-- Nesting depth. -/
def Fmt.DType.depth : Fmt.DType → Nat
  | .fixed .. | .float .. | .str .. | .opaque .. | .ref .. => 1
  | .compound _ _ _ ts => Fmt.typesDepth ts + 1
  | .enum .. => 2
  | .vlenSeq _ _ _ e | .vlenStr _ _ _ _ e | .array _ _ _ _ e => e.depth + 1
/-- The deepest of the members. -/
def Fmt.typesDepth : List Fmt.DType → Nat
  | [] => 0
  | t :: ts => max t.depth (Fmt.typesDepth ts)
end

mutual
theorem dtype_ok : ∀ (t : DType) (last : Bool) (fuel : Nat), t.Readable last → t.depth ≤ fuel →
    PL last (parseDT fuel) t.bytes t.dt
  | .fixed v s sg be, last, fuel, hr, hd => by
    obtain ⟨f, rfl⟩ : ∃ f, fuel = f + 1 := ⟨fuel - 1, by simp only [DType.depth] at hd; omega⟩
    rw [DType.Readable] at hr
    rw [DType.bytes, DType.dt]
    exact (fixedMsg_ok f v s sg be ⟨hr.1, hr.2.1⟩ hr.2.2).weak
  | .float s be, last, fuel, hr, hd => by
    obtain ⟨f, rfl⟩ : ∃ f, fuel = f + 1 := ⟨fuel - 1, by simp only [DType.depth] at hd; omega⟩
    rw [DType.Readable] at hr
    rw [DType.bytes, DType.dt]
    exact (floatMsg_ok f s be hr).weak
  | .str s pad cs, last, fuel, hr, hd => by
    obtain ⟨f, rfl⟩ : ∃ f, fuel = f + 1 := ⟨fuel - 1, by simp only [DType.depth] at hd; omega⟩
    rw [DType.Readable] at hr
    rw [DType.bytes, DType.dt]
    exact (strMsg_ok f s pad cs ⟨hr.1, hr.2.1⟩).weak
  | .opaque v s tag, last, fuel, hr, hd => by
    obtain ⟨f, rfl⟩ : ∃ f, fuel = f + 1 := ⟨fuel - 1, by simp only [DType.depth] at hd; omega⟩
    rw [DType.Readable] at hr
    obtain ⟨rfl, h1, h4, h0, hs, ht, _⟩ := hr
    rw [DType.dt]
    exact opaqueMsg_ok f v s tag ⟨h1, h4⟩ ⟨h0, hs⟩ ht
  | .ref s k, last, fuel, hr, hd => by
    obtain ⟨f, rfl⟩ : ∃ f, fuel = f + 1 := ⟨fuel - 1, by simp only [DType.depth] at hd; omega⟩
    rw [DType.Readable] at hr
    rw [DType.bytes, DType.dt]
    exact (refMsg_ok f s k ⟨hr.1, hr.2.1⟩ hr.2.2).weak
  | .enum v bv s sg be ns vs, last, fuel, hr, hd => by
    obtain ⟨f, rfl⟩ : ∃ f, fuel = f + 2 := ⟨fuel - 2, by simp only [DType.depth] at hd; omega⟩
    exact (enumMsg_ok f v bv s sg be ns vs hr).weak
  | .vlenSeq v s pad e, last, fuel, hr, hd => by
    simp only [DType.depth] at hd
    obtain ⟨f, rfl⟩ : ∃ f, fuel = f + 1 := ⟨fuel - 1, by omega⟩
    rw [DType.Readable] at hr
    obtain ⟨h1, h4, h0, hs, hp, he⟩ := hr
    rw [DType.bytes, DType.dt]
    refine dtHead_ok f (by omega) ⟨h1, h4⟩ ⟨h0, hs⟩ ?_
    rw [parseClass_vlen]
    have hpad : pad = 0 ∨ pad = 1 := by omega
    intro q rest hr
    have ih := dtype_ok e last f he (by omega) q rest hr
    rcases hpad with rfl | rfl <;>
    simp only [parseVlen, P.bind_apply, Nat.reduceMul, Nat.reduceDiv, Nat.reduceMod, BEq.rfl,
      Bool.true_or, Bool.or_true, P.assert_true, ↓reduceIte, P.pure_apply, checkVal, ih] <;> rfl
  | .vlenStr v s pad cs e, last, fuel, hr, hd => by
    simp only [DType.depth] at hd
    obtain ⟨f, rfl⟩ : ∃ f, fuel = f + 1 := ⟨fuel - 1, by omega⟩
    rw [DType.Readable] at hr
    obtain ⟨h1, h4, h0, hs, hp, hc, he⟩ := hr
    rw [DType.bytes, DType.dt]
    refine dtHead_ok f (by omega) ⟨h1, h4⟩ ⟨h0, hs⟩ ?_
    rw [parseClass_vlen]
    have hpad : pad = 0 ∨ pad = 1 := by omega
    have hcs : cs = 0 ∨ cs = 1 := by omega
    intro q rest hr
    have ih := dtype_ok e last f he (by omega) q rest hr
    rcases hpad with rfl | rfl <;> rcases hcs with rfl | rfl <;>
    simp only [parseVlen, P.bind_apply, Nat.reduceMul, Nat.reduceDiv, Nat.reduceMod, Nat.reduceAdd, BEq.rfl,
      Bool.true_or, Bool.or_true, P.assert_true, ↓reduceIte, P.pure_apply, checkVal, ih,
      Nat.one_ne_zero] <;> rfl
  | .array v s dims perm e, last, fuel, hr, hd => by
    simp only [DType.depth] at hd
    obtain ⟨f, rfl⟩ : ∃ f, fuel = f + 1 := ⟨fuel - 1, by omega⟩
    rw [DType.Readable] at hr
    obtain ⟨h1, h4, h0, hs, hl, hds, hpl, hps, he⟩ := hr
    rw [DType.bytes, DType.dt]
    simp only [List.append_assoc]
    refine dtHead_ok f (by omega) ⟨h1, h4⟩ ⟨h0, hs⟩ ?_
    rw [parseClass_array]
    unfold parseArray
    refine PL.bind (Parses.read8 (by omega)) ?_
    by_cases hv : v ≤ 2
    · simp only [hv, ↓reduceIte, show v = 1 ∨ v = 2 by omega, show v < 3 by omega]
      refine PL.bind (Parses.zero 3) ?_
      refine PL.bind (read32s_num dims hds) ?_
      refine PL.bind (a := perm) ?_ ?_
      · rw [← hpl]; exact read32s_num perm hps
      · exact PL.map (dtype_ok e last f he (by omega)) fun t => rfl
    · simp only [hv, ↓reduceIte, show ¬ (v = 1 ∨ v = 2) by omega, show ¬ v < 3 by omega, List.nil_append]
      refine PL.bind (read32s_num dims hds) ?_
      exact PL.map (dtype_ok e last f he (by omega)) fun t => rfl
  | .compound v s ms ts, last, fuel, hr, hd => by
    simp only [DType.depth] at hd
    obtain ⟨f, rfl⟩ : ∃ f, fuel = f + 1 := ⟨fuel - 1, by omega⟩
    rw [DType.Readable] at hr
    obtain ⟨h1, h4, h0, hs, hl, hn, hm, ho, hts⟩ := hr
    rw [DType.bytes, DType.dt]
    refine dtHead_ok f (by omega) ⟨h1, h4⟩ ⟨h0, hs⟩ ?_
    rw [parseClass_compound, Nat.mod_eq_of_lt (by omega)]
    exact PL.map (members_ok ts ms last f v s ⟨h1, h4⟩ hl hm ho hts (by omega)) fun t => rfl
theorem members_ok : ∀ (ts : List DType) (ms : List (Bytes × Nat × List Nat)) (last : Bool)
    (fuel v s : Nat), (1 ≤ v ∧ v ≤ 4) → ms.length = ts.length → (∀ m ∈ ms, MemberOK v s m) →
    offWidth v s ≠ 3 → TypesReadable last ts → typesDepth ts ≤ fuel →
    PL last (parseMembers (parseDT fuel) v s ms.length) (membersBytes v s ms ts)
      (ms.map fun m => (m.1, m.2.1, if v = 1 then some m.2.2 else none), typesDt ts)
  | [], ms, last, fuel, v, s, hv, hl, hm, ho, hts, hd => by
    obtain rfl : ms = [] := List.length_eq_zero_iff.mp hl
    simp only [membersBytes, typesDt, List.map_nil, List.length_nil]
    exact PL.weak (PL.pure _)
  | t :: ts, [], last, fuel, v, s, hv, hl, hm, ho, hts, hd => by simp at hl
  | t :: ts, m :: ms, last, fuel, v, s, hv, hl, hm, ho, hts, hd => by
    simp only [typesDepth] at hd
    simp only [List.length_cons, Nat.add_right_cancel_iff] at hl
    obtain ⟨m1, m2, m3, m4⟩ := hm m (by simp)
    obtain ⟨l', hrt, hlt, hrs⟩ : ∃ l', t.Readable l' ∧
        (l' = true → membersBytes v s ms ts = [] ∧ last = true) ∧ TypesReadable last ts := by
      cases ts with
      | nil =>
        have : ms = [] := List.length_eq_zero_iff.mp hl
        subst this
        exact ⟨last, by simpa only [TypesReadable] using hts, fun h => ⟨by simp [membersBytes], h⟩, trivial⟩
      | cons t' ts' =>
        simp only [TypesReadable] at hts
        exact ⟨false, hts.1, by simp, hts.2⟩
    simp only [membersBytes, typesDt, List.map_cons, List.length_cons, List.append_assoc, parseMembers]
    refine PL.bind (dtName_ok v m.1 hv m1) ?_
    rw [offWidth_eq v s hv]
    refine PL.bind (readOff_num _ _ (offWidth_cases v s ho) m2) ?_
    refine PL.bind (dtDims_ok v m.2.2 m3 m4) ?_
    refine PL.bindl (dtype_ok t l' fuel hrt (by omega)) ?_ hlt
    exact PL.map (members_ok ts ms last fuel v s hv hl (fun x hx => hm x (by simp [hx])) ho hrs (by omega))
      fun t => rfl
end

mutual
theorem dtype_depth_le : ∀ (t : DType) (last : Bool), t.Readable last → t.depth ≤ t.bytes.length
  | .fixed .., _, _ => by simp [DType.depth, DType.bytes, fixedMsg, dtHead, num_eq]
  | .float s be, _, _ => by
    simp only [DType.depth, DType.bytes, floatMsg]
    split <;> simp [dtHead, num_eq]
  | .str .., _, _ => by simp [DType.depth, DType.bytes, dtHead, num_eq]
  | .opaque .., _, _ => by simp [DType.depth, DType.bytes, dtHead, num_eq]; try omega
  | .ref .., _, _ => by simp [DType.depth, DType.bytes, dtHead, num_eq]
  | .enum .., _, _ => by simp [DType.depth, DType.bytes, dtHead, num_eq]; try omega
  | .vlenSeq _ _ _ e, last, h => by
    rw [DType.Readable] at h
    have := dtype_depth_le e last h.2.2.2.2.2
    simp only [DType.depth, DType.bytes, dtHead, num_eq, List.length_append, leEnc_length]
    omega
  | .vlenStr _ _ _ _ e, last, h => by
    rw [DType.Readable] at h
    have := dtype_depth_le e last h.2.2.2.2.2.2
    simp only [DType.depth, DType.bytes, dtHead, num_eq, List.length_append, leEnc_length]
    omega
  | .array _ _ _ _ e, last, h => by
    rw [DType.Readable] at h
    have := dtype_depth_le e last h.2.2.2.2.2.2.2.2
    simp only [DType.depth, DType.bytes, dtHead, num_eq, List.length_append, leEnc_length]
    omega
  | .compound v s ms ts, last, h => by
    rw [DType.Readable] at h
    have := types_depth_le ts ms last v s h.2.2.2.2.2.2.2.2 h.2.2.2.2.1
    simp only [DType.depth, DType.bytes, dtHead, num_eq, List.length_append, leEnc_length]
    omega
theorem types_depth_le : ∀ (ts : List DType) (ms : List (Bytes × Nat × List Nat)) (last : Bool)
    (v s : Nat), TypesReadable last ts → ms.length = ts.length →
    typesDepth ts ≤ (membersBytes v s ms ts).length
  | [], _, _, _, _, _, _ => by simp [typesDepth]
  | t :: ts, [], _, _, _, _, h => by simp at h
  | t :: ts, m :: ms, last, v, s, hr, h => by
    obtain ⟨l', hrt, hrs⟩ : ∃ l', t.Readable l' ∧ TypesReadable last ts := by
      cases ts with
      | nil => exact ⟨last, by simpa only [TypesReadable] using hr, trivial⟩
      | cons t' ts' =>
        simp only [TypesReadable] at hr
        exact ⟨false, hr.1, hr.2⟩
    have h1 := dtype_depth_le t l' hrt
    have h2 := types_depth_le ts ms last v s hrs (by simpa using h)
    simp only [typesDepth, membersBytes, List.length_append]
    omega
end

theorem space_ok (sp : Space) (h : sp.OK) : Parses readDataspace sp.bytes sp.dims := by
  intro q rest _
  cases sp with
  | v1 d m => exact fmt_dataspace1 d m q rest h.1 h.2.1 h.2.2
  | v2 t d m => exact fmt_dataspace2 t d m q rest h.1 h.2.1 h.2.2.1 h.2.2.2

theorem space_length (sp : Space) (h : sp.OK) : sp.bytes.length < 65536 := by
  have key : ∀ (d : List Nat) (m : Option (List Nat)), ShapeOK d m →
      8 * d.length + 8 * (m.getD []).length ≤ 4080 := by
    intro d m ⟨h1, _, h3⟩
    cases m with
    | none => simp; omega
    | some m =>
      have := (h3 m rfl).1
      simp only [Option.getD_some]
      omega
  cases sp with
  | v1 d m =>
    have := key d m h
    simp only [Space.bytes, dataspace1, num_eq, List.length_append, leEnc_length, leEnc8_flatMap_length]
    omega
  | v2 t d m =>
    have := key d m h.2
    simp only [Space.bytes, dataspace2, num_eq, List.length_append, leEnc_length, leEnc8_flatMap_length]
    omega

/-- A datatype message of the format. -/
theorem parseDatatype_fmt (t : DType) (last : Bool) (h : t.Readable last) :
    PL last parseDatatype t.bytes t.dt := by
  intro q rest hr
  have h1 := dtype_depth_le t last h
  exact dtype_ok t last ((t.bytes ++ rest).length + 1) h (by simp only [List.length_append]; omega) q rest hr

/-- An attribute message of the format. -/
theorem fmt_attr (v : Nat) (name data : Bytes) (t : DType) (sp : Space) (hv : v = 1 ∨ v = 2 ∨ v = 3)
    (hn : (0 : UInt8) ∉ name) (hnl : name.length < 65535) (ht : t.Readable true)
    (htl : t.bytes.length < 65536) (hs : sp.OK) :
    readAttribute ⟨0, attr v name t.bytes sp.bytes data⟩ =
      match attrData data t.dt with
      | .ok d => .ok (⟨name, sp.dims, t.dt, d⟩, ⟨(attr v name t.bytes sp.bytes data).length, []⟩)
      | .err e => .err e
      | .panic => .panic := by
  have hdl := space_length sp hs
  have hds : ∀ q rest, sub sp.bytes.length readDataspace ⟨q, sp.bytes ++ rest⟩ =
      .ok (sp.dims, ⟨q + sp.bytes.length, rest⟩) := by
    intro q rest
    have := (space_ok sp hs).all 0
    rw [Nat.zero_add] at this
    exact sub_app sp.bytes.length _ _ sp.bytes _ _ _ rfl this
  have hdt : parseDatatype ⟨0, t.bytes⟩ = .ok (t.dt, ⟨t.bytes.length, []⟩) := by
    simpa using (parseDatatype_fmt t true ht).all 0
  generalize hL : (attr v name t.bytes sp.bytes data).length = L
  generalize sp.bytes = db at hdl hds ⊢ hL
  generalize t.bytes = tb at hdt htl ⊢ hL
  have h1 : decide (0 < name.length + 1) = true := by simp
  have ha1 : ((decide (1 ≤ 1) && decide (1 ≤ 3)) : Bool) = true := by decide
  have ha2 : ((decide (1 ≤ 2) && decide (2 ≤ 3)) : Bool) = true := by decide
  have ha3 : ((decide (1 ≤ 3) && decide (3 ≤ 3)) : Bool) = true := by decide
  have h4 : ((0 : Nat) % 4 == 0) = true := by decide
  have e0 := fun q r => read8_app q 0 r (by omega)
  have e1 := fun q r => read8_app q 1 r (by omega)
  have e2 := fun q r => read8_app q 2 r (by omega)
  have e3 := fun q r => read8_app q 3 r (by omega)
  have en := fun q r => read16_app q (name.length + 1) r (by omega)
  have et := fun q r => read16_app q tb.length r htl
  have ed := fun q r => read16_app q db.length r (by omega)
  simp only [attr, num_eq, List.append_assoc, List.length_append, leEnc_length, List.length_cons,
    List.length_nil] at hL ⊢
  obtain rfl | rfl | rfl := hv
  · have hp : ∀ q m : Nat, q % 8 = 0 → ∀ r : Bytes, padTo8 ⟨q + m, List.replicate ((8 - m % 8) % 8) 0 ++ r⟩ =
        .ok ((), ⟨q + m + (8 - m % 8) % 8, r⟩) := by
      intro q m hq r
      have := padTo8_ok (q + m) r
      unfold pad8 at this
      rwa [show (q + m) % 8 = m % 8 by omega] at this
    simp only [show ¬ (1 : Nat) = 3 by omega, ↓reduceIte, List.nil_append, List.length_nil, padded,
      List.append_assoc, List.length_append, List.length_replicate, List.length_cons] at hL ⊢
    rw [← List.append_assoc name [0]]
    have hz : ∀ k, (List.replicate k (0 : UInt8)).all (· == 0) = true := by intro k; simp
    have p1 := hp (0 + 1 + 1 + 2 + 2 + 2) (name.length + 1) (by omega)
    have p2 := hp (0 + 1 + 1 + 2 + 2 + 2 + (name.length + 1) + (8 - (name.length + 1) % 8) % 8 + tb.length +
      (8 - tb.length % 8) % 8) db.length (by omega)
    simp only [readAttribute, P.bind_apply, e1, e0, ha1, P.assert_true, P.pure_apply,
      show ¬ (1 : Nat) = 3 by omega, ↓reduceIte, checkVal, BEq.rfl, en, et, ed, h1, Nat.zero_add,
      rdN_append (name.length + 1) _ (name ++ [0]) _ (by simp), p1, rdN_append tb.length _ tb _ rfl,
      rdN_append _ _ (List.replicate ((8 - tb.length % 8) % 8) 0) _ (List.length_replicate ..), hz]
    rw [hds]
    simp only
    rw [p2]
    simp only [hdt, remLen_apply, rdN_all _ _ data rfl, P.lift]
    cases attrData data t.dt with
    | err e => rfl
    | panic => rfl
    | ok d =>
      simp only
      rw [show name ++ [0] = name ++ (0 :: []) from rfl, getString_nul name [] hn]
      congr 3
      omega
  · simp only [show ¬ (2 : Nat) = 3 by omega, show ¬ (2 : Nat) = 1 by omega, ↓reduceIte, List.nil_append,
      List.length_nil, List.append_assoc, List.length_append, List.length_cons] at hL ⊢
    rw [← List.append_assoc name [0]]
    simp only [readAttribute, P.bind_apply, e2, e0, ha2, P.assert_true, P.pure_apply,
      show ¬ (2 : Nat) = 1 by omega, show ¬ (2 : Nat) = 3 by omega, ↓reduceIte, h4, en, et, ed, h1,
      rdN_append (name.length + 1) _ (name ++ [0]) _ (by simp), rdN_append tb.length _ tb _ rfl,
      hds, hdt, remLen_apply, rdN_all _ _ data rfl, P.lift]
    cases attrData data t.dt with
    | err e => rfl
    | panic => rfl
    | ok d =>
      simp only
      rw [show name ++ [0] = name ++ (0 :: []) from rfl, getString_nul name [] hn]
      congr 3
      omega
  · simp only [show ¬ (3 : Nat) = 1 by omega, ↓reduceIte, leEnc_length, List.append_assoc,
      List.length_append, List.length_cons, List.length_nil] at hL ⊢
    rw [← List.append_assoc name [0]]
    simp only [readAttribute, P.bind_apply, e3, e0, ha3, P.assert_true, P.pure_apply,
      show ¬ (3 : Nat) = 1 by omega, ↓reduceIte, h4, en, et, ed, h1,
      rdN_append (name.length + 1) _ (name ++ [0]) _ (by simp), rdN_append tb.length _ tb _ rfl,
      hds, hdt, remLen_apply, rdN_all _ _ data rfl, P.lift]
    cases attrData data t.dt with
    | err e => rfl
    | panic => rfl
    | ok d =>
      simp only
      rw [show name ++ [0] = name ++ (0 :: []) from rfl, getString_nul name [] hn]
      congr 3
      omega

end Verif.H5
