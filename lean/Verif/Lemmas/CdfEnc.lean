import Verif.Model.CdfReader
import Verif.Lemmas.OrderedMap
/-!
The bytes that the pieces of a CDF header are made of, and what the reader makes of them.
-/
namespace Verif.Cdf

/-! ### The parser monad -/

theorem P.bind_apply {α β : Type} (p : P α) (f : α → P β) (s : Bytes) :
    (p >>= f) s = match p s with
      | .ok (a, s') => f a s'
      | .err e => .err e
      | .panic => .panic := rfl

@[simp] theorem P.pure_apply {α : Type} (a : α) (s : Bytes) : (pure a : P α) s = .ok (a, s) := rfl

theorem P.bind_ok_apply {α β : Type} {p : P α} {f : α → P β} {s s' : Bytes} {a : α}
    (h : p s = .ok (a, s')) : (p >>= f) s = f a s' := by
  rw [P.bind_apply, h]

/-- `p` reads `enc` as `a`, whatever follows. -/
def Reads {α : Type} (p : P α) (enc : Bytes) (a : α) : Prop :=
  ∀ rest, p (enc ++ rest) = .ok (a, rest)

theorem Reads.pure {α : Type} (a : α) : Reads (pure a : P α) [] a := by
  intro rest; rfl

theorem Reads.bind {α β : Type} {p : P α} {f : α → P β} {e1 e2 : Bytes} {a : α} {b : β}
    (h1 : Reads p e1 a) (h2 : Reads (f a) e2 b) : Reads (p >>= f) (e1 ++ e2) b := by
  intro rest
  rw [List.append_assoc, P.bind_ok_apply (h1 _), h2]

theorem Reads.bind_nil {α β : Type} {p : P α} {f : α → P β} {e2 : Bytes} {a : α} {b : β}
    (h1 : Reads p [] a) (h2 : Reads (f a) e2 b) : Reads (p >>= f) e2 b := by
  have := Reads.bind h1 h2
  simpa using this

theorem Reads.bind_pure {α β : Type} {p : P α} {f : α → β} {e1 : Bytes} {a : α}
    (h1 : Reads p e1 a) : Reads (p >>= fun x => Pure.pure (f x)) e1 (f a) := by
  have := Reads.bind (f := fun x => (Pure.pure (f x) : P β)) h1 (Reads.pure (f a))
  simpa using this

theorem reads_rdN (b : Bytes) : Reads (rdN b.length) b b := by
  intro rest
  simp [rdN]

theorem reads_rdN' {n : Nat} (b : Bytes) (h : b.length = n) : Reads (rdN n) b b := by
  subst h; exact reads_rdN b

theorem reads_mk {ma n : Nat} (h : n ≤ ma) : Reads (mk ma n) [] () := by
  unfold mk; rw [if_pos h]; exact Reads.pure ()

theorem reads_assert {b : Bool} {e : Err} (h : b = true) : Reads (P.assert b e) [] () := by
  unfold P.assert; rw [if_pos h]; exact Reads.pure ()

theorem reads_lift {α : Type} {r : Res α} {a : α} (h : r = .ok a) : Reads (P.lift r) [] a := by
  subst h; intro rest; rfl

theorem reads_repeat {α : Type} {p : P α} {encs : List (Bytes × α)}
    (h : ∀ x ∈ encs, Reads p x.1 x.2) :
    Reads (P.repeat p encs.length) (encs.flatMap (·.1)) (encs.map (·.2)) := by
  induction encs with
  | nil => exact Reads.pure []
  | cons x xs ih =>
    simp only [List.flatMap_cons, List.length_cons, List.map_cons, P.repeat]
    refine Reads.bind (h x (by simp)) ?_
    exact Reads.bind_pure (ih (fun y hy => h y (by simp [hy])))

theorem reads_read32 {n : Nat} (h : n < 2 ^ 32) : Reads read32 (beEnc 4 n) n := by
  have := Reads.bind_pure (f := beDec) (reads_rdN' (n := 4) (beEnc 4 n) (by simp))
  rw [beDec_beEnc_of_lt (by omega)] at this
  exact this

theorem reads_read64 {n : Nat} (h : n < 2 ^ 64) : Reads read64 (beEnc 8 n) n := by
  have := Reads.bind_pure (f := beDec) (reads_rdN' (n := 8) (beEnc 8 n) (by simp))
  rw [beDec_beEnc_of_lt (by omega)] at this
  exact this

/-- Numbers that fit the number field of a version. -/
def NumOK (version n : Nat) : Prop := if version < 5 then n < 2 ^ 31 else n < 2 ^ 64

theorem NumOK.lt64 {version n : Nat} (h : NumOK version n) : n < 2 ^ 64 := by
  unfold NumOK at h; split at h <;> omega

theorem NumOK.mono {version n m : Nat} (h : NumOK version n) (hm : m ≤ n) : NumOK version m := by
  unfold NumOK at *
  split at h
  · rename_i hv; rw [if_pos hv]; omega
  · rename_i hv; rw [if_neg hv]; omega

/-- The number field. -/
def encNum (version n : Nat) : Bytes := if version < 5 then beEnc 4 n else beEnc 8 n

theorem encNum_length (version n : Nat) :
    (encNum version n).length = if version < 5 then 4 else 8 := by
  unfold encNum; split <;> simp

theorem encNum_mod (version n : Nat) : (encNum version n).length % 4 = 0 := by
  rw [encNum_length]; split <;> rfl

theorem writeNumber_eq (version n : Nat) (out : Bytes) :
    writeNumber version n out = out ++ encNum version n := by
  unfold writeNumber encNum write32 write64; split <;> rfl

theorem reads_readNumber {version n : Nat} (h : NumOK version n) :
    Reads (readNumber version) (encNum version n) n := by
  unfold readNumber encNum
  unfold NumOK at h
  split at h
  · rename_i hv
    simp only [hv, if_true]
    have := Reads.bind_pure (f := signExt32) (reads_read32 (n := n) (by omega))
    simp only [signExt32, h, if_true] at this
    exact this
  · rename_i hv
    simp only [hv, if_false]
    exact reads_read64 h

/-! ### Padding -/

/-- Zero bytes up to the next multiple of four. -/
def padding (n : Nat) : Bytes := List.replicate ((4 - n % 4) % 4) 0

theorem padding_mod (n : Nat) : (n + (padding n).length) % 4 = 0 := by
  simp only [padding, List.length_replicate]; omega

@[simp] theorem padding_zero (n : Nat) (h : n % 4 = 0) : padding n = [] := by
  simp [padding, h]

theorem pad_eq (out : Bytes) : pad out = out ++ padding out.length := by
  unfold pad
  have e : roundInt64 out.length - out.length = (4 - out.length % 4) % 4 := by
    unfold roundInt64; omega
  simp only [e]
  split
  · rfl
  · rename_i h
    have : (4 - out.length % 4) % 4 = 0 := by omega
    simp [padding, this]

theorem pad_append (out b : Bytes) (h : out.length % 4 = 0) :
    pad (out ++ b) = out ++ (b ++ padding b.length) := by
  rw [pad_eq, List.append_assoc]
  have : (out ++ b).length % 4 = b.length % 4 := by simp; omega
  simp only [padding, this]

/-! ### Names -/

/-- A name without a NUL byte. -/
def NulFree (s : Bytes) : Prop := ∀ b ∈ s, b ≠ 0

/-- The name field. -/
def encName (version : Nat) (s : Bytes) : Bytes :=
  encNum version s.length ++ (s ++ padding s.length)

theorem encName_mod (version : Nat) (s : Bytes) : (encName version s).length % 4 = 0 := by
  have h1 := encNum_mod version s.length
  have h2 := padding_mod s.length
  simp only [encName, List.length_append]; omega

theorem writeName_eq (version : Nat) (s out : Bytes) (h : out.length % 4 = 0) :
    writeName version s out = out ++ encName version s := by
  unfold writeName writeBytes
  rw [writeNumber_eq]
  have : (out ++ encNum version s.length).length % 4 = 0 := by
    have := encNum_mod version s.length
    simp; omega
  rw [pad_append _ _ this]
  simp [encName]

theorem scanName_ok (s t : Bytes) (h : NulFree s) : scanName (s ++ t) s.length = .ok s := by
  induction s with
  | nil => simp [scanName]
  | cons c cs ih =>
    have hc : c ≠ 0 := h c (by simp)
    have := ih (fun b hb => h b (by simp [hb]))
    simp [scanName, hc, this]

theorem roundInt32_eq {n : Nat} (h : n < 2 ^ 64 - 3) :
    roundInt32 n = n + (4 - n % 4) % 4 := by
  unfold roundInt32; omega

theorem reads_readName {ma version : Nat} {s : Bytes} (hn : NumOK version s.length)
    (hs : s.length < 2 ^ 63) (hma : (encName version s).length ≤ ma) (h0 : NulFree s) :
    Reads (readName ma version) (encName version s) s := by
  unfold readName encName
  have hr : roundInt32 s.length = (s ++ padding s.length).length := by
    rw [roundInt32_eq (by omega)]; simp [padding]
  refine Reads.bind (reads_readNumber hn) ?_
  refine Reads.bind_nil (reads_mk ?_) ?_
  · rw [hr]; simp only [encName, List.length_append] at hma ⊢; omega
  · rw [← List.append_nil (s ++ padding s.length)]
    refine Reads.bind (reads_rdN' _ (by rw [hr])) ?_
    exact reads_lift (scanName_ok s _ h0)

/-! ### Attributes -/

theorem ofCode_code (ty : NcType) : NcType.ofCode ty.code = some ty := by cases ty <;> rfl

theorem NcType.code_lt (ty : NcType) : ty.code < 2 ^ 32 := by cases ty <;> decide

theorem kindType_kind (k : Kind) : (kindType k).kind = some k := by cases k <;> rfl

theorem kindType_size (k : Kind) : (kindType k).size = k.size := by cases k <;> rfl

theorem Kind.size_pos (k : Kind) : 0 < k.size := by cases k <;> decide

theorem NcType.size_pos (ty : NcType) : 0 < ty.size := by cases ty <;> decide

theorem NcType.kind_size {ty : NcType} {k : Kind} (h : ty.kind = some k) : ty.size = k.size := by
  cases ty <;> simp [NcType.kind] at h <;> subst h <;> rfl

/-- Types that are not padded have elements of whole words. -/
theorem NcType.padded_of_mod (ty : NcType) (h : ty.padded = false) : ty.size % 4 = 0 := by
  cases ty <;> simp_all [NcType.padded, NcType.size]

/-- An attribute entry. -/
def encAttr (version : Nat) (name : Bytes) (ty : NcType) (n : Nat) (b : Bytes) : Bytes :=
  encName version name ++ (beEnc 4 ty.code ++ (encNum version n ++ (b ++ padding b.length)))

theorem encAttr_mod (version : Nat) (name : Bytes) (ty : NcType) (n : Nat) (b : Bytes) :
    (encAttr version name ty n b).length % 4 = 0 := by
  have h1 := encName_mod version name
  have h2 := encNum_mod version n
  have h3 := padding_mod b.length
  simp only [encAttr, List.length_append, beEnc_length]; omega

/-- The value that the reader makes of the bytes of an attribute. -/
def attrOf (ty : NcType) (n : Nat) (b : Bytes) : GoVal :=
  match ty.kind with
  | none => .str b
  | some k => unwrapOne (.slice (.num k) (decodeElems k n b))

theorem reads_getAttr {ma version : Nat} {name : Bytes} {ty : NcType} {n : Nat} {b : Bytes}
    (hname : NumOK version name.length) (hlen : name.length < 2 ^ 63) (h0 : NulFree name)
    (hv : ty.isV5 = true → 5 ≤ version) (hn : NumOK version n) (hb : b.length = n * ty.size)
    (hma : (encAttr version name ty n b).length ≤ ma) :
    Reads (getAttr ma version) (encAttr version name ty n b) (name, attrOf ty n b) := by
  unfold getAttr encAttr
  simp only [encAttr, List.length_append] at hma
  refine Reads.bind (reads_readName hname hlen (by omega) h0) ?_
  refine Reads.bind (reads_read32 ty.code_lt) ?_
  refine Reads.bind (reads_readNumber hn) ?_
  simp only [ofCode_code]
  refine Reads.bind_nil (reads_assert ?_) ?_
  · cases h : ty.isV5 <;> simp_all
  refine Reads.bind_nil (reads_mk (by omega)) ?_
  refine Reads.bind (reads_rdN' b hb) ?_
  rw [← List.append_nil (padding b.length)]
  refine Reads.bind (a := padding b.length) (reads_rdN' _ (by simp [padding, hb])) ?_
  unfold attrOf
  cases ty.kind <;> exact Reads.pure _

end Verif.Cdf
