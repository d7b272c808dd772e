import Verif.Model.H5Msg
import Verif.Lemmas.H5Type
/-!
Reading back the header messages of the writer.
-/
namespace Verif.H5

theorem leEnc8_flatMap_length (ds : List Nat) :
    (ds.flatMap (leEnc 8)).length = 8 * ds.length := by
  induction ds with
  | nil => rfl
  | cons d ds ih =>
    simp only [List.flatMap_cons, List.length_append, leEnc_length, ih, List.length_cons]
    omega

theorem read64s_ok (ds : List Nat) (p : Nat) (rest : Bytes) (h : ∀ d ∈ ds, d < 2 ^ 64) :
    read64s ds.length ⟨p, ds.flatMap (leEnc 8) ++ rest⟩ =
      .ok (ds, ⟨p + 8 * ds.length, rest⟩) := by
  induction ds generalizing p with
  | nil => rfl
  | cons d ds ih =>
    simp only [List.flatMap_cons, List.append_assoc, List.length_cons, read64s, P.bind_apply,
      read64_app _ _ _ (h d (by simp)), ih (p + 8) (fun x hx => h x (by simp [hx])), P.pure_apply]
    congr 3
    omega

theorem read32_zeros (p : Nat) (rest : Bytes) :
    read32 ⟨p, 0 :: 0 :: 0 :: 0 :: rest⟩ = .ok (0, ⟨p + 4, rest⟩) :=
  read32_app p 0 rest (by decide)

/-- A dataspace message. -/
theorem readDataspace_ok (dims : List Nat) (p : Nat) (rest : Bytes) (hr : dims.length ≤ 255)
    (h : ∀ d ∈ dims, d < 2 ^ 64) :
    readDataspace ⟨p, buildDataspace dims ++ rest⟩ =
      .ok (dims, ⟨p + (buildDataspace dims).length, rest⟩) := by
  have hl : (buildDataspace dims).length = 8 + 8 * dims.length := by
    simp only [buildDataspace, List.length_append, List.length_cons, List.length_nil,
      leEnc8_flatMap_length]
  have hb : buildDataspace dims ++ rest = 1 :: UInt8.ofNat dims.length :: 0 :: 0 ::
      (0 :: 0 :: 0 :: 0 :: (dims.flatMap (leEnc 8) ++ rest)) := by
    simp [buildDataspace]
  rw [hb, hl]
  simp only [readDataspace, dataspaceType, P.bind_apply, read8_cons, UInt8.reduceToNat,
    toNat_ofNat_small hr,
    BEq.rfl, Bool.true_or, P.assert_true, ↓reduceIte, checkVal, read32_zeros,
    read64s_ok _ _ _ h, P.pure_apply,
    Nat.zero_ne_one, Nat.zero_mod, Nat.zero_div, and_false]
  congr 3
  omega

/-- A layout message. -/
theorem readLayout_ok (addr size p : Nat) (rest : Bytes) (ha : addr < 2 ^ 64 - 1)
    (hs : size < 2 ^ 64) :
    readLayout ⟨p, buildLayout addr size ++ rest⟩ =
      .ok (.contiguous addr size, ⟨p + (buildLayout addr size).length, rest⟩) := by
  have hb : buildLayout addr size ++ rest = 3 :: 1 :: (leEnc 8 addr ++ (leEnc 8 size ++ rest)) := by
    simp [buildLayout]
  have hl : (buildLayout addr size).length = 18 := by simp [buildLayout]
  rw [hb, hl]
  simp only [readLayout, P.bind_apply, read8_cons, UInt8.reduceToNat, BEq.rfl, Bool.true_or,
    P.assert_true, ↓reduceIte, Nat.one_ne_zero, read64_app _ _ _ (show addr < 2 ^ 64 by omega),
    read64_app _ _ _ hs, P.pure_apply, P.ite_apply]
  rw [if_neg (by omega)]

theorem readLinkInfo_ok (p : Nat) (rest : Bytes) :
    readLinkInfo ⟨p, buildLinkInfo ++ rest⟩ =
      .ok ((0xffffffffffffffff, 0xffffffffffffffff), ⟨p + buildLinkInfo.length, rest⟩) := by
  have hb : buildLinkInfo ++ rest = 0 :: 0 :: (leEnc 8 0xffffffffffffffff ++
      (leEnc 8 0xffffffffffffffff ++ rest)) := by
    simp [buildLinkInfo]
  have hl : buildLinkInfo.length = 18 := by simp [buildLinkInfo]
  rw [hb, hl]
  simp only [readLinkInfo, P.bind_apply, read8_cons, UInt8.reduceToNat, Nat.zero_mod,
    Nat.zero_ne_one, Nat.zero_div, ↓reduceIte, P.pure_apply,
    read64_app _ _ _ (show 0xffffffffffffffff < 2 ^ 64 by omega)]

theorem checkZeroes_nil (p : Nat) : checkZeroes 0 ⟨p, []⟩ = .ok ((), ⟨p, []⟩) := rfl

theorem checkZeroes_ok (n p : Nat) (rest : Bytes) :
    checkZeroes n ⟨p, List.replicate n 0 ++ rest⟩ = .ok ((), ⟨p + n, rest⟩) := by
  have hz : (List.replicate n (0 : UInt8)).all (· == 0) = true := by simp
  simp only [checkZeroes, P.bind_apply, rdN_append n p (List.replicate n 0) rest (by simp), hz,
    ↓reduceIte, P.pure_apply]

theorem readGroupInfo_ok (p : Nat) : readGroupInfo ⟨p, [0, 0]⟩ = .ok ((), ⟨p + 2, []⟩) := by
  simp only [readGroupInfo, P.bind_apply, read8_cons, UInt8.reduceToNat, checkVal, BEq.rfl,
    P.assert_true, Nat.zero_mod, Nat.zero_div, Nat.zero_ne_one, ↓reduceIte, P.pure_apply,
    remLen_apply, List.length_nil, checkZeroes_nil]

/-- A link message. -/
theorem readLink_ok (name : Bytes) (addr p : Nat) (hn : name.length ≤ 255) (ha : addr < 2 ^ 64) :
    readLink ⟨p, buildLink name addr⟩ =
      .ok ((name, addr, 0), ⟨p + (buildLink name addr).length, []⟩) := by
  have hb : buildLink name addr = 1 :: 0 :: UInt8.ofNat name.length ::
      (name ++ (leEnc 8 addr ++ [])) := by
    simp [buildLink]
  have hl : (buildLink name addr).length = 11 + name.length := by
    simp [buildLink]
    omega
  rw [hl, hb]
  simp only [readLink, P.bind_apply, read8_cons, UInt8.reduceToNat, checkVal, BEq.rfl,
    P.assert_true, Nat.zero_mod, Nat.zero_div, Nat.zero_ne_one, ↓reduceIte, P.pure_apply,
    readEnc, Nat.pow_zero, toNat_ofNat_small hn, rdN_append name.length _ name _ rfl,
    read64_app _ _ _ ha, remLen_apply, List.length_nil, checkZeroes_nil]
  congr 3
  omega

theorem getString_nul (n rest : Bytes) (h : (0 : UInt8) ∉ n) :
    getString (n ++ (0 :: rest)) = n := takeWhile_name n rest h

theorem pad8_length (n : Nat) : (pad8 n).length = (8 - n % 8) % 8 := by simp [pad8]

theorem padTo8_ok (p : Nat) (rest : Bytes) :
    padTo8 ⟨p, pad8 p ++ rest⟩ = .ok ((), ⟨p + (8 - p % 8) % 8, rest⟩) := by
  simp only [padTo8, P.bind_apply, count, pad8, checkZeroes_ok]

theorem writePadded_mod (buf b : Bytes) : (writePadded buf b).length % 8 = 0 := by
  simp only [writePadded, List.length_append, pad8_length]
  omega

theorem writePadded_eq (buf b : Bytes) (h : buf.length % 8 = 0) :
    writePadded buf b = buf ++ (b ++ pad8 b.length) := by
  have : (buf ++ b).length % 8 = b.length % 8 := by
    simp only [List.length_append]
    omega
  simp only [writePadded, pad8, this, List.append_assoc]

/-- The bytes of an attribute message. -/
theorem buildAttr_eq (name dt ds data : Bytes) :
    buildAttr name dt ds data = 1 :: 0 :: (leEnc 2 (name.length + 1) ++ (leEnc 2 dt.length ++
      (leEnc 2 ds.length ++ ((name ++ [0]) ++ (pad8 (8 + (name.length + 1)) ++ (dt ++
        (pad8 dt.length ++ (ds ++ (pad8 ds.length ++ data)))))))))  := by
  unfold buildAttr
  rw [writePadded_eq _ ds (writePadded_mod _ _), writePadded_eq _ dt (writePadded_mod _ _),
    writePadded_eq _ (name ++ [0]) (by simp)]
  have : pad8 (name ++ [0]).length = pad8 (8 + (name.length + 1)) := by
    simp only [pad8, List.length_append, List.length_cons, List.length_nil]
    congr 2
    omega
  rw [this]
  simp only [List.append_assoc, List.cons_append, List.nil_append]

theorem sub_app {α : Type} (n p q : Nat) (b rest : Bytes) (m : P α) (a : α) (hb : b.length = n)
    (h : m ⟨0, b⟩ = .ok (a, ⟨q, []⟩)) : sub n m ⟨p, b ++ rest⟩ = .ok (a, ⟨p + q, rest⟩) := by
  subst hb
  simp [sub, h]

/-- An attribute message: its name, shape and type; the value is what the class of the type makes of
the data. -/
theorem readAttribute_ok (name data : Bytes) (t : WTy) (dims : List Nat)
    (hn : (0 : UInt8) ∉ name) (hnl : name.length < 65535) (ht : t.Readable true)
    (htl : (t.bytes false).length < 65536) (hr : dims.length ≤ 255) (hd : ∀ d ∈ dims, d < 2 ^ 64) :
    readAttribute ⟨0, buildAttr name (t.bytes false) (buildDataspace dims) data⟩ =
      match attrData data t.dt with
      | .ok d => .ok (⟨name, dims, t.dt, d⟩,
          ⟨(buildAttr name (t.bytes false) (buildDataspace dims) data).length, []⟩)
      | .err e => .err e
      | .panic => .panic := by
  have hdl : (buildDataspace dims).length = 8 + 8 * dims.length := by
    simp only [buildDataspace, List.length_append, List.length_cons, List.length_nil,
      leEnc8_flatMap_length]
  generalize hL : (buildAttr name (t.bytes false) (buildDataspace dims) data).length = L
  rw [buildAttr_eq] at hL ⊢
  simp only [List.length_cons, List.length_append, leEnc_length, List.length_nil,
    pad8_length] at hL
  have hds := readDataspace_ok dims 0 [] hr hd
  simp only [List.append_nil, Nat.zero_add] at hds
  have hdt := parseDatatype_ok t 0 ht
  generalize hdb : buildDataspace dims = db at hdl hds ⊢ hL
  generalize htb : t.bytes false = tb at hdt htl ⊢ hL
  have h1 : decide (0 < name.length + 1) = true := by simp
  have h2 : ((decide (1 ≤ 1) && decide (1 ≤ 3)) : Bool) = true := by decide
  have hz : (pad8 tb.length).all (· == 0) = true := by simp [pad8]
  have hdb8 : db.length % 8 = 0 := by omega
  have hp0 : pad8 db.length = [] := by simp [pad8, hdb8]
  have hp : (0 + 1 + 1 + 2 + 2 + 2 + (name.length + 1)) = 8 + (name.length + 1) := by omega
  simp only [readAttribute, P.bind_apply, read8_cons, UInt8.reduceToNat, h2, P.assert_true,
    ↓reduceIte, checkVal, BEq.rfl, P.pure_apply, read16_app _ _ _ (show name.length + 1 < 65536 by omega),
    read16_app _ _ _ htl, read16_app _ _ _ (show db.length < 65536 by omega),
    show ¬ (1 : Nat) = 3 by omega, h1, rdN_append (name.length + 1) _ (name ++ [0]) _ (by simp), hp,
    padTo8_ok, rdN_append tb.length _ tb _ rfl,
    rdN_append _ _ (pad8 tb.length) _ (pad8_length tb.length), hz,
    sub_app db.length _ _ db _ _ _ rfl hds]
  have hq : (8 + (name.length + 1) + (8 - (8 + (name.length + 1)) % 8) % 8 + tb.length +
    (8 - tb.length % 8) % 8 + db.length) % 8 = 0 := by omega
  have hpz : ∀ p b, p % 8 = 0 → padTo8 ⟨p, b⟩ = .ok ((), ⟨p, b⟩) := by
    intro p b h
    have := padTo8_ok p b
    simpa [pad8, h] using this
  rw [hp0, List.nil_append, hpz _ _ hq]
  simp only [hdt, remLen_apply, rdN_all _ _ data rfl, P.lift]
  cases attrData data t.dt with
  | err e => rfl
  | panic => rfl
  | ok d =>
    simp only
    rw [show name ++ [0] = name ++ (0 :: []) from rfl, getString_nul name [] hn]
    congr 3
    omega

end Verif.H5
