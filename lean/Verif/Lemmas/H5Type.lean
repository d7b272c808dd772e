import Verif.Spec.H5Type
import Verif.Lemmas.H5Base
/-!
Reading back the datatype messages of the writer.
-/
namespace Verif.H5

theorem P.ite_apply {α : Type} (c : Prop) [Decidable c] (a b : P α) (s : S) :
    (if c then a else b) s = if c then a s else b s := by
  split <;> rfl

theorem P.fail_apply {α : Type} (e : Err) (s : S) : (P.fail e : P α) s = .err e := rfl

theorem P.crash_apply {α : Type} (s : S) : (P.crash : P α) s = .panic := rfl

theorem P.assert_true (e : Err) (s : S) : P.assert true e s = .ok ((), s) := rfl

theorem P.assert_false (e : Err) (s : S) : P.assert false e s = .err e := rfl

theorem remLen_apply (p : Nat) (b : Bytes) : remLen ⟨p, b⟩ = .ok (b.length, ⟨p, b⟩) := rfl

theorem parseDT_head (f p len : Nat) (b0 b1 b2 b3 : UInt8) (body : Bytes) (hl : len < 2 ^ 32)
    (hn : len ≠ 0) (hc : b0.toNat % 16 ≤ 10) (h1 : 1 ≤ b0.toNat / 16) (h4 : b0.toNat / 16 ≤ 4) :
    parseDT (f + 1) ⟨p, b0 :: b1 :: b2 :: b3 :: (leEnc 4 len ++ body)⟩ =
      parseClass (parseDT f) b0.toNat b1.toNat b2.toNat len ⟨p + 8, body⟩ := by
  have h8 : 8 ≤ (b0 :: b1 :: b2 :: b3 :: (leEnc 4 len ++ body)).length := by
    simp only [List.length_cons, List.length_append, leEnc_length]
    omega
  have hlen : (len != 0) = true := by simpa using hn
  have hc' : ¬ b0.toNat % 16 > 10 := by omega
  simp only [parseDT, P.bind_apply, remLen_apply, h8, decide_true, P.assert_true, read8_cons,
    read32_app _ _ _ hl, hc', ↓reduceIte, P.pure_apply, h1, h4, Bool.and_self, hlen]

theorem read16_zero (p : Nat) (rest : Bytes) :
    read16 ⟨p, leEnc 2 0 ++ rest⟩ = .ok (0, ⟨p + 2, rest⟩) := read16_app _ _ _ (by omega)

theorem parseFixed_ok (p len b1 : Nat) (rest : Bytes) (h1 : b1 = 0 ∨ b1 = 8)
    (hl : len = 1 ∨ len = 2 ∨ len = 4 ∨ len = 8) :
    parseFixed len b1 ⟨p, leEnc 2 0 ++ (leEnc 2 (len * 8) ++ rest)⟩ =
      .ok (.fixed len (b1 == 8) false, ⟨p + 4, rest⟩) := by
  have hlt : len * 8 < 65536 := by omega
  have hr : decide (0 < (leEnc 2 0 ++ (leEnc 2 (len * 8) ++ rest)).length) = true := by
    simp only [List.length_append, leEnc_length]
    exact decide_eq_true (by omega)
  have hb : (len == 1 || len == 2 || len == 4 || len == 8) = true := by
    rcases hl with h | h | h | h <;> simp [h]
  have hz : (b1 / 2 % 4 == 0) = true := by rcases h1 with h1 | h1 <;> subst h1 <;> rfl
  have hs : (b1 / 8 % 2 == 1) = (b1 == 8) := by rcases h1 with h1 | h1 <;> subst h1 <;> rfl
  have hf : (b1 % 2 == 1) = false := by rcases h1 with h1 | h1 <;> subst h1 <;> rfl
  simp only [parseFixed, P.bind_apply, remLen_apply, hz, P.assert_true, hr, read16_zero,
    read16_app _ _ _ hlt, hb, BEq.rfl, P.pure_apply, hs, hf]

theorem parseFloat_ok4 (p : Nat) (rest : Bytes) :
    parseFloat 1 4 0x20 31 ⟨p, leEnc 2 0 ++ (leEnc 2 32 ++ (23 :: 8 :: 0 :: 23 ::
      (leEnc 4 127 ++ rest)))⟩ = .ok (.float 4 false, ⟨p + 12, rest⟩) := by
  have hr : decide (12 ≤ (leEnc 2 0 ++ (leEnc 2 32 ++ (23 :: 8 :: 0 :: 23 ::
      (leEnc 4 127 ++ rest)))).length) = true := by
    simp only [List.length_append, leEnc_length, List.length_cons]
    exact decide_eq_true (by omega)
  simp only [parseFloat, P.bind_apply, remLen_apply, hr, Nat.reduceDiv, Nat.reduceMod,
    BEq.rfl, P.assert_true, read16_zero, read16_app _ 32 _ (by omega), read8_cons,
    read32_app _ 127 _ (by omega), ↓reduceIte, P.pure_apply, UInt8.reduceToNat, Bool.and_self]
  rfl

theorem parseFloat_ok8 (p : Nat) (rest : Bytes) :
    parseFloat 1 8 0x20 63 ⟨p, leEnc 2 0 ++ (leEnc 2 64 ++ (52 :: 11 :: 0 :: 52 ::
      (leEnc 4 1023 ++ rest)))⟩ = .ok (.float 8 false, ⟨p + 12, rest⟩) := by
  have hr : decide (12 ≤ (leEnc 2 0 ++ (leEnc 2 64 ++ (52 :: 11 :: 0 :: 52 ::
      (leEnc 4 1023 ++ rest)))).length) = true := by
    simp only [List.length_append, leEnc_length, List.length_cons]
    exact decide_eq_true (by omega)
  have h84 : ¬ (8 : Nat) = 4 := by omega
  simp only [parseFloat, P.bind_apply, remLen_apply, hr, Nat.reduceDiv, Nat.reduceMod,
    BEq.rfl, P.assert_true, read16_zero, read16_app _ 64 _ (by omega), read8_cons,
    read32_app _ 1023 _ (by omega), h84, ↓reduceIte, P.pure_apply, UInt8.reduceToNat,
    Bool.and_self]
  rfl

theorem Kind.size_cases (k : Kind) : k.size = 1 ∨ k.size = 2 ∨ k.size = 4 ∨ k.size = 8 := by
  cases k <;> decide

theorem parseFixedDT_ok (f p : Nat) (k : Kind) (rest : Bytes) :
    parseDT (f + 1) ⟨p, buildFixedPoint k.size k.signed ++ rest⟩ =
      .ok (.fixed k.size k.signed false, ⟨p + 12, rest⟩) := by
  have hs : k.size < 2 ^ 32 ∧ k.size ≠ 0 := by
    have := Kind.size_cases k
    omega
  rw [buildFixedPoint]
  simp only [List.append_assoc, List.cons_append, List.nil_append]
  rw [parseDT_head f p k.size _ _ _ _ _ hs.1 hs.2 (by decide) (by decide) (by decide)]
  have : parseClass (parseDT f) (16 : UInt8).toNat (if k.signed = true then 8 else 0 : UInt8).toNat
      (0 : UInt8).toNat k.size = parseFixed k.size (if k.signed = true then 8 else 0) := by
    cases k.signed <;> rfl
  rw [this, parseFixed_ok _ _ _ _ (by cases k.signed <;> simp) (Kind.size_cases k)]
  cases k.signed <;> rfl

theorem parseNum_ok (f p : Nat) (k : Kind) (rest : Bytes) :
    parseDT (f + 1) ⟨p, buildNum k ++ rest⟩ =
      .ok ((WTy.num k).dt, ⟨p + (buildNum k).length, rest⟩) := by
  unfold buildNum WTy.dt
  by_cases hk : k.isFloat = true
  · rw [if_pos hk, if_pos hk]
    have hsz : k.size = 4 ∨ k.size = 8 := by cases k <;> simp_all [Kind.isFloat, Kind.size]
    rcases hsz with h | h <;> rw [h] <;> rw [buildFloatingPoint]
    · rw [if_pos rfl, if_pos rfl]
      simp only [List.append_assoc, List.cons_append, List.nil_append]
      rw [parseDT_head f p 4 _ _ _ _ _ (by omega) (by omega) (by decide) (by decide) (by decide)]
      exact parseFloat_ok4 _ _
    · rw [if_neg (by omega), if_neg (by omega)]
      simp only [List.append_assoc, List.cons_append, List.nil_append]
      rw [parseDT_head f p 8 _ _ _ _ _ (by omega) (by omega) (by decide) (by decide) (by decide)]
      exact parseFloat_ok8 _ _
  · rw [if_neg hk, if_neg hk, parseFixedDT_ok]
    rfl

theorem parseStr_ok (f p n : Nat) (rest : Bytes) (h : 0 < n ∧ n < 2 ^ 32) :
    parseDT (f + 1) ⟨p, buildString n ++ rest⟩ =
      .ok (.str n, ⟨p + (buildString n).length, rest⟩) := by
  rw [buildString]
  simp only [List.append_assoc, List.cons_append, List.nil_append]
  rw [parseDT_head f p n _ _ _ _ _ h.2 (by omega) (by decide) (by decide) (by decide)]
  rfl

theorem parseOpaque_ok (f p n : Nat) (h : 0 < n ∧ n < 2 ^ 32) :
    parseDT (f + 1) ⟨p, buildOpaque n⟩ =
      .ok (.opaque n false, ⟨p + (buildOpaque n).length, []⟩) := by
  have : buildOpaque n = 0x15 :: 0 :: 0 :: 0 :: (leEnc 4 n ++ []) := by
    simp [buildOpaque]
  rw [this, parseDT_head f p n _ _ _ _ _ h.2 (by omega) (by decide) (by decide) (by decide)]
  rfl

theorem parseRef_ok (f p : Nat) (rest : Bytes) :
    parseDT (f + 1) ⟨p, buildReference ++ rest⟩ =
      .ok (.ref 8, ⟨p + buildReference.length, rest⟩) := by
  rw [buildReference]
  simp only [List.append_assoc, List.cons_append, List.nil_append]
  rw [parseDT_head f p 8 _ _ _ _ _ (by omega) (by omega) (by decide) (by decide) (by decide)]
  rfl

theorem takeWhile_name (n rest : Bytes) (h : (0 : UInt8) ∉ n) :
    (n ++ (0 :: rest)).takeWhile (· != 0) = n := by
  induction n with
  | nil => rfl
  | cons a n ih =>
    simp only [List.mem_cons, not_or] at h
    have ha : (a != 0) = true := by simpa using fun h' => h.1 h'.symm
    simp [List.takeWhile_cons, ha, ih h.2]

theorem readName_ok (p : Nat) (n rest : Bytes) (h : (0 : UInt8) ∉ n) :
    readName 0 ⟨p, n ++ (0 :: rest)⟩ = .ok (n, ⟨p + (n.length + 1), rest⟩) := by
  have hne : ¬ n.length = (n ++ 0 :: rest).length := by
    simp only [List.length_append, List.length_cons]
    omega
  have hd : (n ++ 0 :: rest).drop (n.length + 1) = rest := by
    rw [show n ++ 0 :: rest = (n ++ [0]) ++ rest by simp,
      show n.length + 1 = (n ++ [(0 : UInt8)]).length by simp]
    exact List.drop_left
  simp only [readName, P.bind_apply, takeWhile_name _ _ h, hne, ↓reduceIte, hd, Nat.lt_irrefl,
    P.pure_apply, gt_iff_lt]

theorem readNames_ok (ns : List Bytes) (p : Nat) (rest : Bytes)
    (h : ∀ n ∈ ns, (0 : UInt8) ∉ n) :
    readNames 0 ns.length ⟨p, ns.flatMap (fun n => n ++ [0]) ++ rest⟩ =
      .ok (ns, ⟨p + (ns.flatMap (fun n => n ++ [0])).length, rest⟩) := by
  induction ns generalizing p with
  | nil => rfl
  | cons n ns ih =>
    have h1 := h n (by simp)
    have h2 : ∀ m ∈ ns, (0 : UInt8) ∉ m := fun m hm => h m (by simp [hm])
    simp only [List.flatMap_cons, List.append_assoc, List.cons_append, List.nil_append,
      List.length_cons, readNames, P.bind_apply]
    rw [readName_ok _ _ _ h1]
    simp only [ih _ h2, P.pure_apply, List.length_append, List.length_cons]
    rw [show p + (n.length + 1) + (ns.flatMap (fun n => n ++ [0])).length =
      p + (n.length + ((ns.flatMap (fun n => n ++ [0])).length + 1)) by omega]

theorem readVals_ok (sz : Nat) (vs : List Nat) (p : Nat) (rest : Bytes)
    (h : ∀ v ∈ vs, v < 256 ^ sz) :
    readVals sz false vs.length ⟨p, vs.flatMap (leEnc sz) ++ rest⟩ =
      .ok (vs, ⟨p + (vs.flatMap (leEnc sz)).length, rest⟩) := by
  induction vs generalizing p with
  | nil => rfl
  | cons v vs ih =>
    have h1 := h v (by simp)
    have h2 : ∀ m ∈ vs, m < 256 ^ sz := fun m hm => h m (by simp [hm])
    simp only [List.flatMap_cons, List.append_assoc, List.length_cons, readVals, P.bind_apply]
    rw [rdN_append sz p (leEnc sz v) _ (by simp)]
    simp only [ih _ h2, P.pure_apply, List.length_append, leEnc_length, Bool.false_eq_true,
      ↓reduceIte, leDec_leEnc_of_lt h1]
    rw [Nat.add_assoc]

theorem toNat_ofNat_small {n : Nat} (h : n ≤ 255) : (UInt8.ofNat n).toNat = n := by
  simp only [UInt8.toNat_ofNat']
  omega

theorem parseEnum_ok (f p : Nat) (k : Kind) (names : List Bytes) (vals : List Nat) (rest : Bytes)
    (hr : (WTy.enum k names vals).Readable l) :
    parseDT (f + 2) ⟨p, (WTy.enum k names vals).bytes false ++ rest⟩ =
      .ok ((WTy.enum k names vals).dt,
        ⟨p + ((WTy.enum k names vals).bytes false).length, rest⟩) := by
  simp only [WTy.Readable] at hr
  obtain ⟨hk, hlen, hle, hn, hv⟩ := hr
  have hs : k.size < 2 ^ 32 ∧ k.size ≠ 0 := by
    have := Kind.size_cases k
    omega
  have hb : (k.size == 1 || k.size == 2 || k.size == 4 || k.size == 8) = true := by
    rcases Kind.size_cases k with h | h | h | h <;> simp [h]
  rw [WTy.bytes, WTy.dt]
  simp only [List.append_assoc, List.cons_append, List.nil_append]
  rw [parseDT_head (f + 1) p k.size _ _ _ _ _ hs.1 hs.2 (by decide) (by decide) (by decide)]
  rw [toNat_ofNat_small hle]
  have : parseClass (parseDT (f + 1)) (0x38 : UInt8).toNat names.length
    (UInt8.ofNat (names.length / 256)).toNat k.size =
    parseEnum (parseDT (f + 1)) 3 k.size names.length := rfl
  rw [this]
  have h3 : ¬ ((3 : Nat) = 1 ∨ (3 : Nat) = 2) := by omega
  simp only [parseEnum, P.bind_apply, parseFixedDT_ok, h3, ↓reduceIte]
  rw [readNames_ok _ _ _ hn]
  simp only [hb, P.bind_apply, P.assert_true]
  have hh : (hostEnc false k.size) = leEnc k.size := by
    funext n
    rfl
  rw [hh, hlen, readVals_ok _ _ _ _ hv]
  have hbl : (buildFixedPoint k.size k.signed).length = 12 := by
    simp [buildFixedPoint]
  simp only [P.pure_apply, List.length_cons, List.length_append, leEnc_length, hbl]
  congr 3
  omega

mutual
/-- Nesting depth. -/
def WTy.depth : WTy → Nat
  | .num _ | .fixStr _ | .opaque _ | .ref => 1
  | .vlenStr => 2
  | .vlenSeq t => t.depth + 1
  | .compound _ ts => depths ts + 1
  | .enum _ _ _ => 2
def depths : List WTy → Nat
  | [] => 0
  | t :: ts => max t.depth (depths ts)
end

theorem readOff_ok (p off total : Nat) (rest : Bytes) (ho : off ≤ total) (ht : total < 2 ^ 32)
    (hn : ¬ (65536 ≤ total ∧ total < 16777216)) :
    readEnc (offsetBytes 3 total) ⟨p, writeEnc off total ++ rest⟩ =
      .ok (off, ⟨p + (writeEnc off total).length, rest⟩) := by
  have h3 : ¬ ((3 : Nat) = 1 ∨ (3 : Nat) = 2) := by omega
  unfold readEnc offsetBytes writeEnc
  rw [if_neg h3]
  by_cases h1 : total < 256
  · simp only [h1, ↓reduceIte]
    rw [read8_app _ _ _ (by omega)]
    simp
  · by_cases h2 : total < 65536
    · simp only [h1, h2, ↓reduceIte]
      simp only [show ¬ (2 : Nat) = 1 by omega, ↓reduceIte]
      rw [read16_app _ _ _ (by omega)]
      simp
    · simp only [h1, h2, show ¬ total < 16777216 by omega, ↓reduceIte]
      simp only [show ¬ (4 : Nat) = 1 by omega, show ¬ (4 : Nat) = 2 by omega, ↓reduceIte]
      rw [read32_app _ _ _ (by omega)]
      simp

mutual
theorem parse_ok : ∀ (t : WTy) (last : Bool) (fuel p : Nat) (rest : Bytes), t.Readable last →
    (last = true → rest = []) → t.depth ≤ fuel →
    parseDT fuel ⟨p, t.bytes false ++ rest⟩ = .ok (t.dt, ⟨p + (t.bytes false).length, rest⟩)
  | .num k, last, fuel, p, rest, hr, hl, hd => by
    obtain ⟨f, rfl⟩ : ∃ f, fuel = f + 1 := ⟨fuel - 1, by simp only [WTy.depth] at hd; omega⟩
    rw [WTy.bytes]
    exact parseNum_ok f p k rest
  | .fixStr n, last, fuel, p, rest, hr, hl, hd => by
    obtain ⟨f, rfl⟩ : ∃ f, fuel = f + 1 := ⟨fuel - 1, by simp only [WTy.depth] at hd; omega⟩
    rw [WTy.bytes, WTy.dt]
    exact parseStr_ok f p n rest hr
  | .vlenStr, last, fuel, p, rest, hr, hl, hd => by
    obtain ⟨f, rfl⟩ : ∃ f, fuel = f + 2 := ⟨fuel - 2, by simp only [WTy.depth] at hd; omega⟩
    rw [WTy.bytes, WTy.dt, buildVLenString]
    simp only [List.append_assoc, List.cons_append, List.nil_append]
    rw [parseDT_head (f + 1) p 16 _ _ _ _ _ (by omega) (by omega) (by decide) (by decide)
      (by decide)]
    have : parseClass (parseDT (f + 1)) (0x19 : UInt8).toNat (1 : UInt8).toNat
      (0 : UInt8).toNat 16 = parseVlen (parseDT (f + 1)) 16 1 0 := rfl
    rw [this]
    simp only [parseVlen, P.bind_apply, Nat.reduceDiv, Nat.reduceMod, BEq.rfl, Bool.true_or,
      P.assert_true, show ¬ (1 : Nat) = 0 by omega, ↓reduceIte, P.pure_apply]
    rw [parseStr_ok f _ 1 rest (by omega)]
    simp only [List.length_cons, List.length_append, leEnc_length]
    congr 3
  | .vlenSeq t, last, fuel, p, rest, hr, hl, hd => by
    simp only [WTy.depth] at hd
    obtain ⟨f, rfl⟩ : ∃ f, fuel = f + 1 := ⟨fuel - 1, by omega⟩
    rw [WTy.bytes, WTy.dt]
    simp only [List.append_assoc, List.cons_append, List.nil_append]
    rw [parseDT_head f p 16 _ _ _ _ _ (by omega) (by omega) (by decide) (by decide)
      (by decide)]
    have : parseClass (parseDT f) (0x19 : UInt8).toNat (0 : UInt8).toNat
      (0 : UInt8).toNat 16 = parseVlen (parseDT f) 16 0 0 := rfl
    rw [this]
    have ih := parse_ok t last f (p + 8) rest (by simpa only [WTy.Readable] using hr) hl (by omega)
    simp only [parseVlen, P.bind_apply, Nat.zero_div, Nat.zero_mod, BEq.rfl, Bool.true_or,
      P.assert_true, ↓reduceIte, P.pure_apply, checkVal, ih]
    simp only [List.length_cons, List.length_append, leEnc_length]
    rw [show ((0 : Nat) == 1) = false from rfl]
    congr 3
    omega
  | .opaque n, last, fuel, p, rest, hr, hl, hd => by
    obtain ⟨f, rfl⟩ : ∃ f, fuel = f + 1 := ⟨fuel - 1, by simp only [WTy.depth] at hd; omega⟩
    simp only [WTy.Readable] at hr
    rw [WTy.bytes, WTy.dt, hl hr.1, List.append_nil]
    exact parseOpaque_ok f p n hr.2
  | .compound names ts, last, fuel, p, rest, hr, hl, hd => by
    simp only [WTy.depth] at hd
    obtain ⟨f, rfl⟩ : ∃ f, fuel = f + 1 := ⟨fuel - 1, by omega⟩
    simp only [WTy.Readable] at hr
    obtain ⟨hlen, hle, hn, hpos, hlt, hgap, hrs⟩ := hr
    rw [WTy.bytes, WTy.dt]
    simp only [List.append_assoc, List.cons_append, List.nil_append]
    rw [parseDT_head f p _ _ _ _ _ _ hlt (by omega) (by decide) (by decide) (by decide)]
    rw [toNat_ofNat_small (by omega)]
    have : parseClass (parseDT f) (0x36 : UInt8).toNat names.length
      (UInt8.ofNat (names.length / 256)).toNat (fieldSizes ts) =
      (parseMembers (parseDT f) 3 (fieldSizes ts) names.length >>= fun r =>
        pure (.compound (fieldSizes ts) r.1 r.2)) := rfl
    rw [this, hlen]
    simp only [P.bind_apply]
    rw [parseMembers_ok ts names last f (p + 8) 0 (fieldSizes ts) rest hrs hl (by omega) hlen hn
      (by omega) hlt hgap]
    simp only [P.pure_apply, List.length_cons, List.length_append, leEnc_length]
    congr 3
    omega
  | .enum k names vals, last, fuel, p, rest, hr, hl, hd => by
    obtain ⟨f, rfl⟩ : ∃ f, fuel = f + 2 := ⟨fuel - 2, by simp only [WTy.depth] at hd; omega⟩
    exact parseEnum_ok f p k names vals rest hr
  | .ref, last, fuel, p, rest, hr, hl, hd => by
    obtain ⟨f, rfl⟩ : ∃ f, fuel = f + 1 := ⟨fuel - 1, by simp only [WTy.depth] at hd; omega⟩
    rw [WTy.bytes, WTy.dt]
    exact parseRef_ok f p rest
theorem parseMembers_ok : ∀ (ts : List WTy) (names : List Bytes) (last : Bool)
    (fuel p off total : Nat) (rest : Bytes), Readables last ts → (last = true → rest = []) →
    depths ts ≤ fuel → names.length = ts.length → (∀ n ∈ names, (0 : UInt8) ∉ n) →
    off + fieldSizes ts ≤ total → total < 2 ^ 32 → ¬ (65536 ≤ total ∧ total < 16777216) →
    parseMembers (parseDT fuel) 3 total ts.length
        ⟨p, memberBytes false total off names ts ++ rest⟩ =
      .ok ((packed off names ts, dts ts),
        ⟨p + (memberBytes false total off names ts).length, rest⟩)
  | [], names, last, fuel, p, off, total, rest, hr, hl, hd, hlen, hn, ho, ht, hg => by
    obtain rfl : names = [] := List.length_eq_zero_iff.mp hlen
    rfl
  | t :: ts, [], last, fuel, p, off, total, rest, hr, hl, hd, hlen, hn, ho, ht, hg => by
    simp at hlen
  | t :: ts, n :: ns, last, fuel, p, off, total, rest, hr, hl, hd, hlen, hn, ho, ht, hg => by
    simp only [depths] at hd
    simp only [fieldSizes] at ho
    simp only [List.length_cons, Nat.add_right_cancel_iff] at hlen
    have h3 : ¬ ((3 : Nat) = 1 ∨ (3 : Nat) = 2) := by omega
    obtain ⟨l', hrt, hlt, hrs⟩ : ∃ l', t.Readable l' ∧
        (l' = true → memberBytes false total (off + t.fieldSize) ns ts ++ rest = []) ∧
        Readables last ts := by
      cases ts with
      | nil =>
        have : ns = [] := List.length_eq_zero_iff.mp hlen
        subst this
        exact ⟨last, by simpa only [Readables] using hr, by simpa [memberBytes] using hl, trivial⟩
      | cons t' ts' =>
        simp only [Readables] at hr
        exact ⟨false, hr.1, by simp, hr.2⟩
    simp only [memberBytes, List.append_assoc, List.cons_append, List.nil_append,
      List.length_cons, parseMembers, P.bind_apply]
    rw [if_neg h3, readName_ok _ _ _ (hn n (by simp))]
    simp only
    rw [readOff_ok _ _ _ _ (by omega) ht hg]
    simp only [memberDims, show ¬ (3 : Nat) = 1 by omega, ↓reduceIte, P.pure_apply]
    rw [parse_ok t l' fuel _ _ hrt hlt (by omega)]
    simp only
    rw [parseMembers_ok ts ns last fuel _ (off + t.fieldSize) total rest hrs hl (by omega) hlen
      (fun m hm => hn m (by simp [hm])) (by omega) ht hg]
    simp only [packed, dts, List.length_append, List.length_cons]
    congr 3
    omega
end

mutual
theorem depth_le : ∀ (t : WTy) (last : Bool), t.Readable last →
    t.depth ≤ (t.bytes false).length
  | .num k, _, _ => by cases k <;> decide
  | .fixStr n, _, _ => by simp [WTy.depth, WTy.bytes, buildString]
  | .vlenStr, _, _ => by decide
  | .vlenSeq t, last, h => by
    have := depth_le t last (by simpa only [WTy.Readable] using h)
    simp [WTy.depth, WTy.bytes]
    omega
  | .opaque n, _, _ => by simp [WTy.depth, WTy.bytes, buildOpaque]
  | .compound names ts, last, h => by
    simp only [WTy.Readable] at h
    have := depths_le ts names last (fieldSizes ts) 0 h.2.2.2.2.2.2 h.1
    simp [WTy.depth, WTy.bytes]
    omega
  | .enum k names vals, _, _ => by
    simp [WTy.depth, WTy.bytes, buildFixedPoint]
  | .ref, _, _ => by decide
theorem depths_le : ∀ (ts : List WTy) (names : List Bytes) (last : Bool) (total off : Nat),
    Readables last ts → names.length = ts.length →
    depths ts ≤ (memberBytes false total off names ts).length
  | [], _, _, _, _, _, _ => by simp [depths]
  | t :: ts, [], _, _, _, _, h => by simp at h
  | t :: ts, n :: ns, last, total, off, hr, h => by
    obtain ⟨l', hrt, hrs⟩ : ∃ l', t.Readable l' ∧ Readables last ts := by
      cases ts with
      | nil => exact ⟨last, by simpa only [Readables] using hr, trivial⟩
      | cons t' ts' =>
        simp only [Readables] at hr
        exact ⟨false, hr.1, hr.2⟩
    have h1 := depth_le t l' hrt
    have h2 := depths_le ts ns last total (off + t.fieldSize) hrs (by simpa using h)
    simp only [depths, memberBytes, List.length_append]
    omega
end

/-- A datatype message of the writer at the end of its reader. -/
theorem parseDatatype_ok (t : WTy) (p : Nat) (h : t.Readable true) :
    parseDatatype ⟨p, t.bytes false⟩ = .ok (t.dt, ⟨p + (t.bytes false).length, []⟩) := by
  have h1 := depth_le t true h
  have := parse_ok t true ((t.bytes false).length + 1) p [] h (fun _ => rfl) (by omega)
  simpa [parseDatatype] using this

/-- A datatype message of the writer, with other bytes behind it. -/
theorem parseDatatype_app (t : WTy) (p : Nat) (rest : Bytes) (h : t.Readable false) :
    parseDatatype ⟨p, t.bytes false ++ rest⟩ = .ok (t.dt, ⟨p + (t.bytes false).length, rest⟩) := by
  have h1 := depth_le t false h
  exact parse_ok t false ((t.bytes false ++ rest).length + 1) p rest h (by simp)
    (by simp only [List.length_append]; omega)

end Verif.H5
