import Verif.Spec.H5Header
import Verif.Model.H5Object
import Verif.Lemmas.H5Msg
/-!
The reader on the message variants of `Spec/H5Format`.
-/
namespace Verif.H5
open Fmt

theorem num_eq : num = leEnc := rfl

theorem read32s_ok (ds : List Nat) (p : Nat) (rest : Bytes) (h : ∀ d ∈ ds, d < 2 ^ 32) :
    read32s ds.length ⟨p, ds.flatMap (leEnc 4) ++ rest⟩ =
      .ok (ds, ⟨p + 4 * ds.length, rest⟩) := by
  induction ds generalizing p with
  | nil => rfl
  | cons d ds ih =>
    simp only [List.flatMap_cons, List.append_assoc, List.length_cons, read32s, P.bind_apply,
      read32_app _ _ _ (h d (by simp)), ih (p + 4) (fun x hx => h x (by simp [hx])), P.pure_apply]
    congr 3
    omega

theorem leEnc4_flatMap_length (ds : List Nat) :
    (ds.flatMap (leEnc 4)).length = 4 * ds.length := by
  induction ds with
  | nil => rfl
  | cons d ds ih =>
    simp only [List.flatMap_cons, List.length_append, leEnc_length, ih, List.length_cons]
    omega

theorem fmt_dataspace1 (dims : List Nat) (max : Option (List Nat)) (p : Nat) (rest : Bytes)
    (hr : dims.length ≤ 255) (h : ∀ d ∈ dims, d < 2 ^ 64)
    (hm : ∀ m, max = some m → m.length = dims.length ∧ ∀ d ∈ m, d < 2 ^ 64) :
    readDataspace ⟨p, dataspace1 dims max ++ rest⟩ =
      .ok (dims, ⟨p + (dataspace1 dims max).length, rest⟩) := by
  have hv : ((1 : Nat) == 1 || (1 : Nat) == 2) = true := by decide
  cases max with
  | none =>
    simp only [dataspace1, num_eq, bit, Option.isSome_none, Bool.false_eq_true, ↓reduceIte,
      Option.getD_none, List.flatMap_nil, List.append_nil, List.append_assoc, readDataspace,
      dataspaceType, checkVal, P.bind_apply, read8_app _ _ _ (show 1 < 256 by omega),
      read8_app _ _ _ (show dims.length < 256 by omega), read8_app _ _ _ (show 0 < 256 by omega),
      read32_app _ _ _ (show 0 < 2 ^ 32 by omega), read64s_ok _ _ _ h, P.pure_apply, hv,
      P.assert_true, BEq.rfl, Bool.true_or, Nat.zero_mod, Nat.zero_ne_one, Nat.zero_div, and_false,
      List.length_append, leEnc_length, leEnc8_flatMap_length]
    congr 3
    omega
  | some m =>
    obtain ⟨hml, hmd⟩ := hm m rfl
    have hd : ∀ p r, read64s dims.length ⟨p, m.flatMap (leEnc 8) ++ r⟩ =
        .ok (m, ⟨p + 8 * m.length, r⟩) := fun p r => by rw [← hml]; exact read64s_ok m p r hmd
    simp only [dataspace1, num_eq, bit, Option.isSome_some, ↓reduceIte, Nat.pow_zero,
      Option.getD_some, List.append_assoc, readDataspace,
      dataspaceType, checkVal, P.bind_apply, read8_app _ _ _ (show 1 < 256 by omega),
      read8_app _ _ _ (show dims.length < 256 by omega), read8_app _ _ _ (show 0 < 256 by omega),
      read32_app _ _ _ (show 0 < 2 ^ 32 by omega), read64s_ok _ _ _ h, P.pure_apply, hv,
      P.assert_true, BEq.rfl, Bool.true_or, Nat.one_mod, hd, show 1 / 2 % 2 = 1 ↔ False by decide, and_false,
      List.length_append, leEnc_length, leEnc8_flatMap_length]
    congr 3
    omega

theorem fmt_dataspace2 (ty : Nat) (dims : List Nat) (max : Option (List Nat)) (p : Nat)
    (rest : Bytes) (ht : ty ≤ 2)
    (hr : dims.length ≤ 255) (h : ∀ d ∈ dims, d < 2 ^ 64)
    (hm : ∀ m, max = some m → m.length = dims.length ∧ ∀ d ∈ m, d < 2 ^ 64) :
    readDataspace ⟨p, dataspace2 ty dims max ++ rest⟩ =
      .ok (dims, ⟨p + (dataspace2 ty dims max).length, rest⟩) := by
  have hv : ((2 : Nat) == 1 || (2 : Nat) == 2) = true := by decide
  have ht' : decide (ty ≤ 2) = true := by simpa using ht
  cases max with
  | none =>
    simp only [dataspace2, num_eq, bit, Option.isSome_none, Bool.false_eq_true, ↓reduceIte,
      Option.getD_none, List.flatMap_nil, List.append_nil, List.append_assoc, readDataspace,
      dataspaceType, P.bind_apply, read8_app _ _ _ (show 2 < 256 by omega),
      read8_app _ _ _ (show dims.length < 256 by omega), read8_app _ _ _ (show ty < 256 by omega),
      read8_app _ _ _ (show 0 < 256 by omega),
      read64s_ok _ _ _ h, P.pure_apply, hv, ht', show ¬ (2 : Nat) = 1 by omega, false_and,
      P.assert_true, Nat.zero_mod, Nat.zero_ne_one, List.length_append, leEnc_length, leEnc8_flatMap_length]
    congr 3
    omega
  | some m =>
    obtain ⟨hml, hmd⟩ := hm m rfl
    have hd : ∀ p r, read64s dims.length ⟨p, m.flatMap (leEnc 8) ++ r⟩ =
        .ok (m, ⟨p + 8 * m.length, r⟩) := fun p r => by rw [← hml]; exact read64s_ok m p r hmd
    simp only [dataspace2, num_eq, bit, Option.isSome_some, ↓reduceIte, Nat.pow_zero,
      Option.getD_some, List.append_assoc, readDataspace,
      dataspaceType, P.bind_apply, read8_app _ _ _ (show 2 < 256 by omega),
      read8_app _ _ _ (show 1 < 256 by omega),
      read8_app _ _ _ (show dims.length < 256 by omega), read8_app _ _ _ (show ty < 256 by omega),
      read64s_ok _ _ _ h, P.pure_apply, hv, ht', show ¬ (2 : Nat) = 1 by omega, false_and,
      P.assert_true, Nat.one_mod, hd,
      List.length_append, leEnc_length, leEnc8_flatMap_length]
    congr 3
    omega

theorem fmt_linkInfo (mi bo : Option Nat) (heap btree p : Nat) (rest : Bytes)
    (hm : ∀ x, mi = some x → x < 2 ^ 64) (hb : ∀ x, bo = some x → x < 2 ^ 64)
    (hh : heap < 2 ^ 64) (ht : btree < 2 ^ 64) :
    readLinkInfo ⟨p, linkInfo mi bo heap btree ++ rest⟩ =
      .ok ((heap, btree), ⟨p + (linkInfo mi bo heap btree).length, rest⟩) := by
  cases mi with
  | none =>
    cases bo with
    | none =>
      simp only [linkInfo, num_eq, bit, Option.isSome_none, Bool.false_eq_true, ↓reduceIte,
        Option.map_none, Option.getD_none, List.append_nil, List.append_assoc, readLinkInfo,
        P.bind_apply, read8_app _ _ _ (show 0 < 256 by omega), Nat.add_zero, Nat.zero_mod,
        Nat.zero_div, Nat.zero_ne_one, P.pure_apply, read64_app _ _ _ hh, read64_app _ _ _ ht,
        List.length_append, leEnc_length]
    | some b =>
      simp only [linkInfo, num_eq, bit, Option.isSome_none, Option.isSome_some, Bool.false_eq_true,
        ↓reduceIte, Option.map_some, Option.getD_some, Nat.zero_add, Nat.pow_one,
        Option.map_none, Option.getD_none, List.nil_append, List.append_assoc, readLinkInfo,
        P.bind_apply, read8_app _ _ _ (show 0 < 256 by omega), read8_app _ _ _ (show 2 < 256 by omega),
        show ¬ 2 % 2 = 1 by omega, show 2 / 2 % 2 = 1 by omega,
        P.pure_apply, read64_app _ _ _ hh, read64_app _ _ _ ht, read64_app _ _ _ (hb b rfl),
        List.length_append, leEnc_length]
  | some m =>
    cases bo with
    | none =>
      simp only [linkInfo, num_eq, bit, Option.isSome_none, Option.isSome_some, Bool.false_eq_true, ↓reduceIte,
        Option.map_some, Option.getD_some, Nat.pow_zero,
        Option.map_none, Option.getD_none, List.append_nil, List.append_assoc, readLinkInfo,
        P.bind_apply, read8_app _ _ _ (show 0 < 256 by omega), read8_app _ _ _ (show 1 < 256 by omega), Nat.add_zero,
        show 1 % 2 = 1 by omega, show ¬ 1 / 2 % 2 = 1 by omega, read64_app _ _ _ (hm m rfl),
        P.pure_apply, read64_app _ _ _ hh, read64_app _ _ _ ht,
        List.length_append, leEnc_length]
    | some b =>
      simp only [linkInfo, num_eq, bit, Option.isSome_some,
        ↓reduceIte, Option.map_some, Option.getD_some, Nat.pow_one, Nat.pow_zero,
        List.append_assoc, readLinkInfo, Nat.reduceAdd,
        P.bind_apply, read8_app _ _ _ (show 0 < 256 by omega), read8_app _ _ _ (show 3 < 256 by omega),
        show 3 % 2 = 1 by omega, show 3 / 2 % 2 = 1 by omega, read64_app _ _ _ (hm m rfl),
        P.pure_apply, read64_app _ _ _ hh, read64_app _ _ _ ht, read64_app _ _ _ (hb b rfl),
        List.length_append, leEnc_length]

theorem fmt_attributeInfo (mi bo : Option Nat) (heap btree p : Nat) (rest : Bytes)
    (hm : ∀ x, mi = some x → x < 2 ^ 16) (hb : ∀ x, bo = some x → x < 2 ^ 64)
    (hh : heap < 2 ^ 64) (ht : btree < 2 ^ 64) :
    readAttributeInfo ⟨p, attributeInfo mi bo heap btree ++ rest⟩ =
      .ok ((heap, btree), ⟨p + (attributeInfo mi bo heap btree).length, rest⟩) := by
  cases mi with
  | none =>
    cases bo with
    | none =>
      simp only [attributeInfo, num_eq, bit, Option.isSome_none, Bool.false_eq_true, ↓reduceIte,
        Option.map_none, Option.getD_none, List.append_nil, List.append_assoc, readAttributeInfo,
        checkVal, BEq.rfl, P.assert_true,
        P.bind_apply, read8_app _ _ _ (show 0 < 256 by omega), Nat.add_zero, Nat.zero_mod,
        Nat.zero_div, Nat.zero_ne_one, P.pure_apply, read64_app _ _ _ hh, read64_app _ _ _ ht,
        List.length_append, leEnc_length]
    | some b =>
      simp only [attributeInfo, num_eq, bit, Option.isSome_none, Option.isSome_some, Bool.false_eq_true,
        ↓reduceIte, Option.map_some, Option.getD_some, Nat.zero_add, Nat.pow_one,
        checkVal, BEq.rfl, P.assert_true,
        Option.map_none, Option.getD_none, List.nil_append, List.append_assoc, readAttributeInfo,
        P.bind_apply, read8_app _ _ _ (show 0 < 256 by omega), read8_app _ _ _ (show 2 < 256 by omega),
        show ¬ 2 % 2 = 1 by omega, show 2 / 2 % 2 = 1 by omega,
        P.pure_apply, read64_app _ _ _ hh, read64_app _ _ _ ht, read64_app _ _ _ (hb b rfl),
        List.length_append, leEnc_length]
  | some m =>
    have hm16 : m < 65536 := by have := hm m rfl; omega
    cases bo with
    | none =>
      simp only [attributeInfo, num_eq, bit, Option.isSome_none, Option.isSome_some, Bool.false_eq_true, ↓reduceIte,
        Option.map_some, Option.getD_some, Nat.pow_zero, checkVal, BEq.rfl, P.assert_true,
        Option.map_none, Option.getD_none, List.append_nil, List.append_assoc, readAttributeInfo,
        P.bind_apply, read8_app _ _ _ (show 0 < 256 by omega), read8_app _ _ _ (show 1 < 256 by omega), Nat.add_zero,
        show 1 % 2 = 1 by omega, show ¬ 1 / 2 % 2 = 1 by omega, read16_app _ _ _ hm16,
        P.pure_apply, read64_app _ _ _ hh, read64_app _ _ _ ht,
        List.length_append, leEnc_length]
    | some b =>
      simp only [attributeInfo, num_eq, bit, Option.isSome_some, checkVal, BEq.rfl, P.assert_true,
        ↓reduceIte, Option.map_some, Option.getD_some, Nat.pow_one, Nat.pow_zero,
        List.append_assoc, readAttributeInfo, Nat.reduceAdd,
        P.bind_apply, read8_app _ _ _ (show 0 < 256 by omega), read8_app _ _ _ (show 3 < 256 by omega),
        show 3 % 2 = 1 by omega, show 3 / 2 % 2 = 1 by omega, read16_app _ _ _ hm16,
        P.pure_apply, read64_app _ _ _ hh, read64_app _ _ _ ht, read64_app _ _ _ (hb b rfl),
        List.length_append, leEnc_length]

theorem fmt_hardLink_pad (w : Nat) (ts : Bool) (co cs : Option Nat) (name : Bytes) (addr p k : Nat)
    (hw : w ≤ 3) (hco : ∀ x, co = some x → x < 2 ^ 64) (hcs : ∀ x, cs = some x → x ≤ 1)
    (hn : name.length < 256 ^ 2 ^ w) (ha : addr < 2 ^ 64) :
    readLink ⟨p, hardLink w ts co cs name addr ++ List.replicate k 0⟩ =
      .ok ((name, addr, co.getD 0), ⟨p + ((hardLink w ts co cs name addr).length + k), []⟩) := by
  have hF : ∀ a b c : Bool, w + bit 2 a + bit 3 b + bit 4 c < 256 ∧
      (w + bit 2 a + bit 3 b + bit 4 c) % 4 = w ∧
      ((w + bit 2 a + bit 3 b + bit 4 c) / 4 % 2 = 1 ↔ a = true) ∧
      ((w + bit 2 a + bit 3 b + bit 4 c) / 8 % 2 = 1 ↔ b = true) ∧
      ((w + bit 2 a + bit 3 b + bit 4 c) / 16 % 2 = 1 ↔ c = true) := by
    intro a b c
    cases a <;> cases b <;> cases c <;> simp [bit] <;> omega
  obtain ⟨h1, h2, h3, h4, h5⟩ := hF co.isSome ts cs.isSome
  have hlen : ∀ q r, readEnc (2 ^ w) ⟨q, leEnc (2 ^ w) name.length ++ r⟩ =
      .ok (name.length, ⟨q + 2 ^ w, r⟩) := by
    intro q r
    obtain rfl | rfl | rfl | rfl : w = 0 ∨ w = 1 ∨ w = 2 ∨ w = 3 := by omega
    · exact read8_app q _ r (by simpa using hn)
    · exact read16_app q _ r (by simpa using hn)
    · exact read32_app q _ r (by simpa using hn)
    · exact read64_app q _ r (by simpa using hn)
  generalize hG : w + bit 2 co.isSome + bit 3 ts + bit 4 cs.isSome = F at h1 h2 h3 h4 h5
  have hz : ∀ q, checkZeroes k ⟨q, List.replicate k 0⟩ = .ok ((), ⟨q + k, []⟩) := by
    intro q
    simpa using checkZeroes_ok k q []
  simp only [hardLink, num_eq, hG, List.append_assoc, List.length_append, leEnc_length]
  have e0 := fun q r => read8_app q 0 r (by omega)
  have e1 := fun q r => read8_app q 1 r (by omega)
  have e2 := fun q r => read8_app q F r h1
  cases ts <;> cases co <;> cases cs <;>
  simp only [Option.isSome_none, Option.isSome_some, Bool.false_eq_true, iff_false, iff_true] at h3 h4 h5
  case false.none.none | true.none.none =>
    simp only [readLink, P.bind_apply, checkVal, BEq.rfl, P.assert_true, P.pure_apply, e0, e1, e2,
      h3, h4, h5, h2, hlen, rdN_append name.length _ name _ rfl, read64_app _ _ _ ha, remLen_apply,
      List.length_replicate, hz, List.length_nil, ↓reduceIte, Option.map_none, Option.getD_none,
      Option.map_some, Option.getD_some, List.nil_append, leEnc_length, Bool.false_eq_true]
    congr 3
    omega
  case false.none.some c | true.none.some c =>
    have hc : c ≤ 1 := hcs c rfl
    have hc' : (c == 0 || c == 1) = true := by
      obtain rfl | rfl : c = 0 ∨ c = 1 := by omega
      · rfl
      · rfl
    have e3 := fun q r => read8_app q c r (by omega)
    simp only [readLink, P.bind_apply, checkVal, BEq.rfl, P.assert_true, P.pure_apply, e0, e1, e2,
      h3, h4, h5, h2, hlen, rdN_append name.length _ name _ rfl, read64_app _ _ _ ha, remLen_apply,
      List.length_replicate, hz, List.length_nil, ↓reduceIte, Option.map_none, Option.getD_none,
      Option.map_some, Option.getD_some, List.nil_append, leEnc_length, Bool.false_eq_true, hc', e3]
    congr 3
    omega
  case false.some.none d | true.some.none d =>
    have e4 := fun q r => read64_app q d r (hco d rfl)
    simp only [readLink, P.bind_apply, checkVal, BEq.rfl, P.assert_true, P.pure_apply, e0, e1, e2,
      h3, h4, h5, h2, hlen, rdN_append name.length _ name _ rfl, read64_app _ _ _ ha, remLen_apply,
      List.length_replicate, hz, List.length_nil, ↓reduceIte, Option.map_none, Option.getD_none,
      Option.map_some, Option.getD_some, List.nil_append, leEnc_length, Bool.false_eq_true, e4]
    congr 3
    omega
  case false.some.some d c | true.some.some d c =>
    have hc : c ≤ 1 := hcs c rfl
    have hc' : (c == 0 || c == 1) = true := by
      obtain rfl | rfl : c = 0 ∨ c = 1 := by omega
      · rfl
      · rfl
    have e3 := fun q r => read8_app q c r (by omega)
    have e4 := fun q r => read64_app q d r (hco d rfl)
    simp only [readLink, P.bind_apply, checkVal, BEq.rfl, P.assert_true, P.pure_apply, e0, e1, e2,
      h3, h4, h5, h2, hlen, rdN_append name.length _ name _ rfl, read64_app _ _ _ ha, remLen_apply,
      List.length_replicate, hz, List.length_nil, ↓reduceIte, Option.map_none, Option.getD_none,
      Option.map_some, Option.getD_some, List.nil_append, leEnc_length, Bool.false_eq_true, hc', e3, e4]
    congr 3
    omega

theorem fmt_groupInfo_pad (ph est : Option (Nat × Nat)) (p k : Nat)
    (hp : ∀ x, ph = some x → x.1 < 65536 ∧ x.2 < 65536)
    (he : ∀ x, est = some x → x.1 < 65536 ∧ x.2 < 65536) :
    readGroupInfo ⟨p, groupInfo ph est ++ List.replicate k 0⟩ =
      .ok ((), ⟨p + (groupInfo ph est).length + k, []⟩) := by
  have hz : ∀ q, checkZeroes k ⟨q, List.replicate k 0⟩ = .ok ((), ⟨q + k, []⟩) := by
    intro q
    simpa using checkZeroes_ok k q []
  have e0 := fun q r => read8_app q 0 r (by omega)
  cases ph with
  | none =>
    cases est with
    | none =>
      have hs : groupInfo none none = leEnc 1 0 ++ leEnc 1 0 := rfl
      rw [hs, List.append_assoc]
      simp only [readGroupInfo, P.bind_apply, checkVal, BEq.rfl, P.assert_true, P.pure_apply, e0,
        Nat.zero_mod, Nat.zero_div, Nat.zero_ne_one, ↓reduceIte, remLen_apply, List.length_replicate,
        hz, List.length_append, leEnc_length]
    | some y =>
      obtain ⟨h1, h2⟩ := he y rfl
      have e2 := fun q r => read8_app q 2 r (by omega)
      have hl : decide (4 ≤ 2 + (2 + k)) = true := decide_eq_true (by omega)
      simp only [groupInfo, num_eq, bit, Option.isSome_none, Option.isSome_some, Bool.false_eq_true,
        ↓reduceIte, Option.map_some, Option.getD_some, Option.map_none, Option.getD_none,
        List.append_nil, Nat.zero_add, Nat.pow_one, List.append_assoc]
      simp only [readGroupInfo, P.bind_apply, checkVal, BEq.rfl, P.assert_true, P.pure_apply, e0, e2,
        show ¬ 2 % 2 = 1 by omega, show 2 / 2 % 2 = 1 by omega, ↓reduceIte, remLen_apply, hl,
        read16_app _ _ _ h1, read16_app _ _ _ h2, List.length_replicate, hz,
        List.length_append, leEnc_length, List.nil_append]
  | some x =>
    obtain ⟨g1, g2⟩ := hp x rfl
    cases est with
    | none =>
      have e2 := fun q r => read8_app q 1 r (by omega)
      have hl : decide (4 ≤ 2 + (2 + k)) = true := decide_eq_true (by omega)
      simp only [groupInfo, num_eq, bit, Option.isSome_none, Option.isSome_some, Bool.false_eq_true,
        ↓reduceIte, Option.map_some, Option.getD_some, Option.map_none, Option.getD_none,
        List.append_nil, Nat.add_zero, Nat.pow_zero, List.append_assoc]
      simp only [readGroupInfo, P.bind_apply, checkVal, BEq.rfl, P.assert_true, P.pure_apply, e0, e2,
        show 1 % 2 = 1 by omega, show ¬ 1 / 2 % 2 = 1 by omega, ↓reduceIte, remLen_apply, hl,
        read16_app _ _ _ g1, read16_app _ _ _ g2, List.length_replicate, hz,
        List.length_append, leEnc_length]
    | some y =>
      obtain ⟨h1, h2⟩ := he y rfl
      have e2 := fun q r => read8_app q 3 r (by omega)
      have hl : decide (4 ≤ 2 + (2 + k)) = true := decide_eq_true (by omega)
      have hl2 : decide (4 ≤ 2 + (2 + (2 + (2 + k)))) = true := decide_eq_true (by omega)
      simp only [groupInfo, num_eq, bit, Option.isSome_some,
        ↓reduceIte, Option.map_some, Option.getD_some,
        Nat.reduceAdd, Nat.pow_one, Nat.pow_zero, List.append_assoc]
      simp only [readGroupInfo, P.bind_apply, checkVal, BEq.rfl, P.assert_true, P.pure_apply, e0, e2,
        show 3 % 2 = 1 by omega, show 3 / 2 % 2 = 1 by omega, ↓reduceIte, remLen_apply, hl, hl2,
        read16_app _ _ _ h1, read16_app _ _ _ h2, read16_app _ _ _ g1, read16_app _ _ _ g2,
        List.length_replicate, hz, List.length_append, leEnc_length]

theorem ver34 {v : Nat} (hv : v = 3 ∨ v = 4) : (v == 3 || v == 4) = true ∧ v < 256 := by
  obtain rfl | rfl := hv <;> decide

theorem fmt_compact (v p : Nat) (data rest : Bytes) (hv : v = 3 ∨ v = 4) (hd : data.length < 65536) :
    readLayout ⟨p, compact v data ++ rest⟩ =
      .ok (.compact data, ⟨p + (compact v data).length, rest⟩) := by
  obtain ⟨h1, h2⟩ := ver34 hv
  have e0 := fun q r => read8_app q 0 r (by omega)
  have ev := fun q r => read8_app q v r h2
  simp only [compact, num_eq, List.append_assoc, readLayout, P.bind_apply, e0, ev, h1, P.assert_true,
    P.pure_apply, ↓reduceIte, read16_app _ _ _ hd, rdN_append data.length _ data _ rfl,
    List.length_append, leEnc_length]
  congr 3
  omega

theorem fmt_contiguous (v addr size p : Nat) (rest : Bytes) (hv : v = 3 ∨ v = 4)
    (ha : addr < 2 ^ 64) (hs : size < 2 ^ 64) :
    readLayout ⟨p, contiguous v addr size ++ rest⟩ =
      .ok (if addr = undefAddr then .missing [] else .contiguous addr size,
        ⟨p + (contiguous v addr size).length, rest⟩) := by
  obtain ⟨h1, h2⟩ := ver34 hv
  have e1 := fun q r => read8_app q 1 r (by omega)
  have ev := fun q r => read8_app q v r h2
  simp only [contiguous, num_eq, List.append_assoc, readLayout, P.bind_apply, e1, ev, h1, P.assert_true,
    P.pure_apply, ↓reduceIte, Nat.one_ne_zero, read64_app _ _ _ ha, read64_app _ _ _ hs,
    List.length_append, leEnc_length]
  rfl

theorem fmt_chunked (addr : Nat) (chunk : List Nat) (es p : Nat) (rest : Bytes)
    (ha : addr < 2 ^ 64) (hc : chunk ≠ []) (hl : chunk.length < 255) (hb : ∀ c ∈ chunk, c < 2 ^ 32)
    (hs : es < 2 ^ 32) :
    readLayout ⟨p, chunked addr chunk es ++ rest⟩ =
      .ok (if addr = undefAddr then .missing chunk else .chunked addr chunk es,
        ⟨p + (chunked addr chunk es).length, rest⟩) := by
  obtain ⟨h1, h2⟩ := ver34 (v := 3) (.inl rfl)
  have e3 := fun q r => read8_app q 3 r (by omega)
  have e2 := fun q r => read8_app q 2 r (by omega)
  have ed := fun q r => read8_app q (chunk.length + 1) r (by omega)
  have h0 : 0 < chunk.length := List.length_pos_iff.2 hc
  have hd : decide (2 ≤ chunk.length + 1) = true := by simp; omega
  simp only [chunked, num_eq, List.append_assoc, readLayout, P.bind_apply, e3, e2, ed, h1, P.assert_true,
    P.pure_apply, ↓reduceIte, show ¬ (2 : Nat) = 0 by omega, show ¬ (2 : Nat) = 1 by omega,
    show ¬ (3 : Nat) = 4 by omega, read64_app _ _ _ ha, hd, Nat.add_sub_cancel, read32s_ok _ _ _ hb,
    read32_app _ _ _ hs, List.length_append, leEnc_length, leEnc4_flatMap_length]
  congr 3
  omega

theorem readCdv_ok (ds : List Nat) (p : Nat) (rest : Bytes) (h : ∀ d ∈ ds, d < 2 ^ 32) :
    readCdv ds.length ⟨p, ds.flatMap (leEnc 4) ++ rest⟩ =
      .ok (ds, ⟨p + 4 * ds.length, rest⟩) := by
  induction ds generalizing p with
  | nil => rfl
  | cons d ds ih =>
    have hl : decide (4 ≤ (leEnc 4 d ++ (ds.flatMap (leEnc 4) ++ rest)).length) = true := by
      simp only [List.length_append, leEnc_length, decide_eq_true_eq]
      omega
    simp only [List.flatMap_cons, List.append_assoc, List.length_cons, readCdv, P.bind_apply,
      remLen_apply, hl, P.assert_true, P.pure_apply,
      read32_app _ _ _ (h d (by simp)), ih (p + 4) (fun x hx => h x (by simp [hx]))]
    congr 3
    omega

theorem padTo8_aligned (p : Nat) (b : Bytes) (h : p % 8 = 0) : padTo8 ⟨p, b⟩ = .ok ((), ⟨p, b⟩) := by
  have := padTo8_ok p b
  simpa [pad8, h] using this

theorem fmt_filter1 (f : Filter) (p : Nat) (rest : Bytes) (hf : f.Known) (hp : p % 8 = 0) :
    ∃ q, q % 8 = 0 ∧ q = p + (filter1 f).length ∧
    readFilter 1 ⟨p, filter1 f ++ rest⟩ = .ok ((f.id, f.cdv), ⟨q, rest⟩) := by
  obtain ⟨hid, hnl, hn8, hcl, hc⟩ := hf
  have hk : (f.id == 1 || f.id == 2 || f.id == 3) = true := by
    obtain h | h | h := hid <;> simp [h]
  have hlen : (filter1 f).length = 8 + f.name.length + 4 * f.cdv.length +
      (if f.cdv.length % 2 = 1 then 4 else 0) := by
    simp only [filter1, num_eq, List.length_append, leEnc_length, leEnc4_flatMap_length]
    split <;> simp
  have hb : bit 0 f.optional < 65536 := by cases f.optional <;> decide
  refine ⟨p + (filter1 f).length, ?_, rfl, ?_⟩
  · rw [hlen]
    split <;> omega
  rw [hlen]
  have h16i := fun q r => read16_app q f.id r (by obtain h | h | h := hid <;> omega)
  have h16n := fun q r => read16_app q f.name.length r hnl
  have h16b := fun q r => read16_app q (bit 0 f.optional) r hb
  have h16c := fun q r => read16_app q f.cdv.length r hcl
  have hpad : ∀ b, padTo8 ⟨p + 2 + 2 + 2 + 2 + f.name.length, b⟩ =
      .ok ((), ⟨p + 2 + 2 + 2 + 2 + f.name.length, b⟩) := fun b => padTo8_aligned _ _ (by omega)
  by_cases hn : 0 < f.name.length
  · by_cases ho : f.cdv.length % 2 = 1
    · simp only [filter1, num_eq, ho, ↓reduceIte, List.append_assoc, readFilter, P.bind_apply, h16i,
        true_or, h16n, h16b, h16c, hn, rdN_append f.name.length _ f.name _ rfl, hpad,
        readCdv_ok _ _ _ hc, true_and, read32_app _ _ _ (show 0 < 2 ^ 32 by omega), checkVal, BEq.rfl,
        P.assert_true, P.pure_apply, hk]
      congr 3
      omega
    · simp only [filter1, num_eq, ho, ↓reduceIte, List.append_assoc, readFilter, P.bind_apply, h16i,
        true_or, h16n, h16b, h16c, hn, rdN_append f.name.length _ f.name _ rfl, hpad, List.nil_append,
        readCdv_ok _ _ _ hc, and_false, P.assert_true, P.pure_apply, hk]
      congr 3
      omega
  · have hn0 : f.name = [] := List.eq_nil_of_length_eq_zero (by omega)
    rw [hn0] at h16n
    simp only [List.length_nil] at h16n
    by_cases ho : f.cdv.length % 2 = 1
    · simp only [filter1, num_eq, ho, ↓reduceIte, List.append_assoc, readFilter, P.bind_apply, h16i,
        true_or, h16n, h16b, h16c, hn0, List.length_nil, Nat.lt_irrefl, List.nil_append,
        readCdv_ok _ _ _ hc, true_and, read32_app _ _ _ (show 0 < 2 ^ 32 by omega), checkVal, BEq.rfl,
        P.assert_true, P.pure_apply, hk]
      congr 3
      omega
    · simp only [filter1, num_eq, ho, ↓reduceIte, List.append_assoc, readFilter, P.bind_apply, h16i,
        true_or, h16n, h16b, h16c, hn0, List.length_nil, Nat.lt_irrefl, List.nil_append,
        readCdv_ok _ _ _ hc, and_false, P.assert_true, P.pure_apply, hk]
      congr 3
      omega

theorem fmt_filter2 (f : Filter) (p : Nat) (rest : Bytes) (hf : f.Known) :
    readFilter 2 ⟨p, filter2 f ++ rest⟩ =
      .ok ((f.id, f.cdv), ⟨p + (filter2 f).length, rest⟩) := by
  obtain ⟨hid, -, -, hcl, hc⟩ := hf
  have hk : (f.id == 1 || f.id == 2 || f.id == 3) = true := by
    obtain h | h | h := hid <;> simp [h]
  have hi : ¬ 256 ≤ f.id := by obtain h | h | h := hid <;> omega
  have hb : bit 0 f.optional < 65536 := by cases f.optional <;> decide
  have h16i := fun q r => read16_app q f.id r (by obtain h | h | h := hid <;> omega)
  have h16b := fun q r => read16_app q (bit 0 f.optional) r hb
  have h16c := fun q r => read16_app q f.cdv.length r hcl
  simp only [filter2, num_eq, List.append_assoc, readFilter, P.bind_apply, h16i, hi, or_false, ↓reduceIte,
    P.pure_apply, h16b, h16c, Nat.lt_irrefl, readCdv_ok _ _ _ hc, show ¬ (2 : Nat) = 1 by omega,
    false_and, hk, P.assert_true, List.length_append, leEnc_length, leEnc4_flatMap_length]
  congr 3
  omega

theorem fmt_filters1 (fs : List Filter) (p : Nat) (rest : Bytes) (hf : ∀ f ∈ fs, f.Known)
    (hp : p % 8 = 0) :
    readFilters 1 fs.length ⟨p, fs.flatMap filter1 ++ rest⟩ =
      .ok (fs.map (fun f => (f.id, f.cdv)), ⟨p + (fs.flatMap filter1).length, rest⟩) := by
  induction fs generalizing p with
  | nil => rfl
  | cons f fs ih =>
    obtain ⟨q, hq, hql, h⟩ := fmt_filter1 f p (fs.flatMap filter1 ++ rest) (hf f (by simp)) hp
    simp only [List.flatMap_cons, List.append_assoc, List.length_cons, readFilters, P.bind_apply, h,
      ih q (fun x hx => hf x (by simp [hx])) hq, P.pure_apply, List.map_cons, List.length_append]
    congr 3
    omega

theorem fmt_filters2 (fs : List Filter) (p : Nat) (rest : Bytes) (hf : ∀ f ∈ fs, f.Known) :
    readFilters 2 fs.length ⟨p, fs.flatMap filter2 ++ rest⟩ =
      .ok (fs.map (fun f => (f.id, f.cdv)), ⟨p + (fs.flatMap filter2).length, rest⟩) := by
  induction fs generalizing p with
  | nil => rfl
  | cons f fs ih =>
    simp only [List.flatMap_cons, List.append_assoc, List.length_cons, readFilters, P.bind_apply,
      fmt_filter2 f p _ (hf f (by simp)),
      ih _ (fun x hx => hf x (by simp [hx])), P.pure_apply, List.map_cons, List.length_append]
    congr 3
    omega

theorem fmt_pipeline1 (fs : List Filter) (rest : Bytes) (hl : fs.length < 256)
    (hf : ∀ f ∈ fs, f.Known) :
    readFilterPipeline ⟨0, pipeline1 fs ++ rest⟩ =
      .ok (fs.map (fun f => (f.id, f.cdv)), ⟨(pipeline1 fs).length, rest⟩) := by
  have hv : ((1 : Nat) == 1 || (1 : Nat) == 2) = true := by decide
  have e1 := fun q r => read8_app q 1 r (by omega)
  simp only [pipeline1, num_eq, List.append_assoc, readFilterPipeline, P.bind_apply, e1, BEq.rfl, Bool.true_or,
    P.assert_true, P.pure_apply, read8_app _ _ _ hl, ↓reduceIte, checkVal,
    read16_app _ _ _ (show 0 < 65536 by omega), read32_app _ _ _ (show 0 < 2 ^ 32 by omega),
    fmt_filters1 fs _ rest hf (show (0 + 1 + 1 + 2 + 4) % 8 = 0 by omega), List.length_append, leEnc_length]
  congr 3
  omega

theorem fmt_pipeline2 (fs : List Filter) (p : Nat) (rest : Bytes) (hl : fs.length < 256)
    (hf : ∀ f ∈ fs, f.Known) :
    readFilterPipeline ⟨p, pipeline2 fs ++ rest⟩ =
      .ok (fs.map (fun f => (f.id, f.cdv)), ⟨p + (pipeline2 fs).length, rest⟩) := by
  have hv : ((2 : Nat) == 1 || (2 : Nat) == 2) = true := by decide
  have e1 := fun q r => read8_app q 2 r (by omega)
  simp only [pipeline2, num_eq, List.append_assoc, readFilterPipeline, P.bind_apply, e1, hv,
    P.assert_true, P.pure_apply, read8_app _ _ _ hl, ↓reduceIte, show ¬ (2 : Nat) = 1 by omega,
    fmt_filters2 fs _ rest hf, List.length_append, leEnc_length]
  congr 3
  omega

/-- What a fill value message means to the reader: an empty value is no value. -/
def fillOf : Fill → Option FillVal
  | .notSet => none
  | .undefined => some .undefined
  | .value [] => none
  | .value b => some (.value b)

theorem fmt_fill3 (a w p : Nat) (v : Fill) (rest : Bytes) (ha : 1 ≤ a ∧ a ≤ 3) (hw : w ≤ 2)
    (hv : ∀ b, v = .value b → b.length < 2 ^ 32) :
    readFillValue ⟨p, fill3 a w v ++ rest⟩ = .ok (fillOf v, ⟨p + (fill3 a w v).length, rest⟩) := by
  have e3 := fun q r => read8_app q 3 r (by omega)
  have h3 : (decide (1 ≤ 3) && decide (3 ≤ 3)) = true := by decide
  have ha' : (a == 1 || a == 2 || a == 3) = true := by
    obtain h | h | h : a = 1 ∨ a = 2 ∨ a = 3 := by omega
    all_goals simp [h]
  have hw' : (w == 0 || w == 1 || w == 2) = true := by
    obtain h | h | h : w = 0 ∨ w = 1 ∨ w = 2 := by omega
    all_goals simp [h]
  cases v with
  | notSet =>
    have hF : (a + 4 * w) < 256 ∧ (a + 4 * w) / 64 = 0 ∧ (a + 4 * w) % 4 = a ∧ (a + 4 * w) / 4 % 4 = w
      ∧ (a + 4 * w) / 32 % 2 = 0 ∧ (a + 4 * w) / 16 % 2 = 0 := by omega
    obtain ⟨f1, f2, f3, f4, f5, f6⟩ := hF
    simp only [fill3, num_eq, List.append_assoc, readFillValue, P.bind_apply, e3, h3, P.assert_true, P.pure_apply,
      ↓reduceIte, read8_app _ _ _ f1, checkVal, f2, BEq.rfl, f3, f4, f5, f6, Nat.zero_ne_one, ha', hw',
      show 1 < 3 by omega, and_self, List.length_append, leEnc_length, fillOf]
  | undefined =>
    have hF : (a + 4 * w + 16) < 256 ∧ (a + 4 * w + 16) / 64 = 0 ∧ (a + 4 * w + 16) / 32 % 2 = 0 ∧
        (a + 4 * w + 16) / 16 % 2 = 1 := by omega
    obtain ⟨f1, f2, f5, f6⟩ := hF
    simp only [fill3, num_eq, List.append_assoc, readFillValue, P.bind_apply, e3, h3, P.assert_true, P.pure_apply,
      ↓reduceIte, read8_app _ _ _ f1, checkVal, f2, BEq.rfl, f5, f6,
      List.length_append, leEnc_length, fillOf]
  | value b =>
    have hF : (a + 4 * w + 32) < 256 ∧ (a + 4 * w + 32) / 64 = 0 ∧ (a + 4 * w + 32) % 4 = a ∧
        (a + 4 * w + 32) / 4 % 4 = w ∧ (a + 4 * w + 32) / 32 % 2 = 1 ∧ (a + 4 * w + 32) / 16 % 2 = 0 := by
      omega
    obtain ⟨f1, f2, f3, f4, f5, f6⟩ := hF
    simp only [fill3, num_eq, List.append_assoc, readFillValue, P.bind_apply, e3, h3, P.assert_true, P.pure_apply,
      ↓reduceIte, read8_app _ _ _ f1, checkVal, f2, BEq.rfl, f3, f4, f5, f6, Nat.zero_ne_one, ha', hw',
      Nat.one_ne_zero, and_false, read32_app _ _ _ (hv b rfl), List.length_append, leEnc_length, fillOf]
    cases b with
    | nil => rfl
    | cons x xs =>
      rw [if_neg (by simp)]
      simp only [P.bind_apply, rdN_append _ _ (x :: xs) rest rfl, P.pure_apply]
      congr 3
      omega

theorem fmt_fill12 (ver a w p : Nat) (v : Fill) (rest : Bytes) (hver : ver = 1 ∨ ver = 2)
    (ha : 1 ≤ a ∧ a ≤ 3) (hw : w ≤ 2) (hu : v ≠ .undefined)
    (hv : ∀ b, v = .value b → b.length < 2 ^ 32) :
    readFillValue ⟨p, (if ver = 1 then fill1 a w v else fill2 a w v) ++ rest⟩ =
      .ok (fillOf v, ⟨p + (if ver = 1 then fill1 a w v else fill2 a w v).length, rest⟩) := by
  have e0 := fun q r => read8_app q 0 r (by omega)
  have e1 := fun q r => read8_app q 1 r (by omega)
  have e2 := fun q r => read8_app q 2 r (by omega)
  have ea := fun q r => read8_app q a r (by omega)
  have ew := fun q r => read8_app q w r (by omega)
  have h1 : (decide (1 ≤ 1) && decide (1 ≤ 3)) = true := by decide
  have h2 : (decide (1 ≤ 2) && decide (2 ≤ 3)) = true := by decide
  have ha' : (a == 1 || a == 2 || a == 3) = true := by
    obtain h | h | h : a = 1 ∨ a = 2 ∨ a = 3 := by omega
    all_goals simp [h]
  have hw' : (w == 0 || w == 1 || w == 2) = true := by
    obtain h | h | h : w = 0 ∨ w = 1 ∨ w = 2 := by omega
    all_goals simp [h]
  obtain rfl | rfl := hver
  · cases v with
    | undefined => exact absurd rfl hu
    | notSet =>
      simp only [fill1, num_eq, List.append_assoc, readFillValue, P.bind_apply, e1, e0, ea, ew, h1,
        P.assert_true, P.pure_apply, ↓reduceIte, show ¬ (1 : Nat) = 3 by omega, Nat.zero_ne_one, ha',
        hw', Nat.lt_irrefl, false_and, read32_app _ _ _ (show 0 < 2 ^ 32 by omega),
        List.length_append, leEnc_length, fillOf]
    | value b =>
      simp only [fill1, num_eq, List.append_assoc, readFillValue, P.bind_apply, e1, e0, ea, ew, h1,
        P.assert_true, P.pure_apply, ↓reduceIte, show ¬ (1 : Nat) = 3 by omega, Nat.zero_ne_one, ha',
        hw', Nat.lt_irrefl, false_and, read32_app _ _ _ (hv b rfl),
        List.length_append, leEnc_length, fillOf]
      cases b with
      | nil => rfl
      | cons x xs =>
        rw [if_neg (by simp)]
        simp only [P.bind_apply, rdN_append _ _ (x :: xs) rest rfl, P.pure_apply]
        congr 3
        omega
  · cases v with
    | undefined => exact absurd rfl hu
    | notSet =>
      simp only [fill2, num_eq, List.append_assoc, readFillValue, P.bind_apply, e2, e0, ea, ew, h2,
        P.assert_true, P.pure_apply, ↓reduceIte, show ¬ (2 : Nat) = 3 by omega, show ¬ (2 : Nat) = 1 by omega, Nat.zero_ne_one, ha',
        hw', show 1 < 2 by omega, and_self,
        List.length_append, leEnc_length, fillOf]
    | value b =>
      simp only [fill2, num_eq, List.append_assoc, readFillValue, P.bind_apply, e2, e1, e0, ea, ew, h2,
        P.assert_true, P.pure_apply, ↓reduceIte, show ¬ (2 : Nat) = 3 by omega, show ¬ (2 : Nat) = 1 by omega, Nat.zero_ne_one, ha',
        hw', Nat.one_ne_zero, and_false, read32_app _ _ _ (hv b rfl),
        List.length_append, leEnc_length, fillOf]
      cases b with
      | nil => rfl
      | cons x xs =>
        rw [if_neg (by simp)]
        simp only [P.bind_apply, rdN_append _ _ (x :: xs) rest rfl, P.pure_apply]
        congr 3
        omega

end Verif.H5
