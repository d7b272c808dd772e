import Verif.Spec.H5Others
import Verif.Spec.H5Form
import Verif.Lemmas.H5Msg
/-!
The messages of the writer are messages of the format.
-/
namespace Verif.H5

theorem slots_length : ∀ (off : Nat) (ns : List Bytes) (ts : List WTy), ns.length = ts.length →
    (slots off ns ts).length = ns.length
  | _, [], [], _ => rfl
  | _, [], _ :: _, h => by simp at h
  | _, _ :: _, [], h => by simp at h
  | off, n :: ns, t :: ts, h => by
    simp only [slots, List.length_cons, slots_length _ ns ts (by simpa using h)]

theorem forms_length : ∀ ts : List WTy, (forms ts).length = ts.length
  | [] => rfl
  | t :: ts => by simp [forms, forms_length ts]

theorem leEnc3 (n : Nat) : leEnc 3 n = [UInt8.ofNat n, UInt8.ofNat (n / 256), UInt8.ofNat (n / 65536)] := by
  have h : ∀ m : Nat, UInt8.ofNat (m % 256) = UInt8.ofNat m := fun m => UInt8.toNat_inj.mp (by simp)
  simp [leEnc, Nat.div_div_eq_div_mul, h]

theorem buildFixed_form (k : Kind) : buildFixedPoint k.size k.signed = Fmt.fixedMsg 1 k.size k.signed false := by
  cases k <;> decide

theorem hostEnc_false (k n : Nat) : hostEnc false k n = Fmt.numAs false k n := by
  simp [hostEnc, Fmt.numAs, Fmt.num]

mutual
theorem form_bytes : ∀ (t : WTy) (last : Bool), t.Readable last → t.form.bytes = t.bytes false
  | .num k, _, _ => by cases k <;> decide
  | .fixStr n, _, _ => by
    simp [WTy.form, WTy.bytes, Fmt.DType.bytes, Fmt.dtHead, Fmt.num, buildString, leEnc]
  | .vlenStr, _, _ => by decide
  | .vlenSeq t, last, h => by
    have := form_bytes t last (by simpa [WTy.Readable] using h)
    simp [WTy.form, WTy.bytes, Fmt.DType.bytes, Fmt.dtHead, Fmt.num, leEnc, this]
  | .opaque n, _, _ => by
    simp [WTy.form, WTy.bytes, Fmt.DType.bytes, Fmt.dtHead, Fmt.num, buildOpaque, leEnc]
  | .compound names ts, last, h => by
    obtain ⟨h1, h2, h3, h4, h5, h6, h7⟩ := by simpa [WTy.Readable] using h
    have hm := forms_bytes ts last h7 (fieldSizes ts) (by omega) 0 names h1
    simp only [WTy.form, WTy.bytes, Fmt.DType.bytes, Fmt.dtHead, hm, slots_length _ _ _ h1, Fmt.num]
    rw [leEnc3]
    rfl
  | .enum k names vals, _, h => by
    simp only [WTy.form, WTy.bytes, Fmt.DType.bytes, Fmt.dtHead, Fmt.num, leEnc3, buildFixed_form]
    have e1 : (names.flatMap fun n => n ++ [0]) = names.flatMap (Fmt.dtName 3) := by
      congr 1
      funext n
      simp [Fmt.dtName]
    have e2 : vals.flatMap (hostEnc false k.size) = vals.flatMap (Fmt.numAs false k.size) := by
      congr 1
    rw [e1, e2]
    rfl
  | .ref, _, _ => by decide
theorem forms_bytes : ∀ (ts : List WTy) (last : Bool), Readables last ts → ∀ total,
    ¬ (65536 ≤ total ∧ total < 16777216) → ∀ off (ns : List Bytes), ns.length = ts.length →
    Fmt.membersBytes 3 total (slots off ns ts) (forms ts) = memberBytes false total off ns ts
  | [], _, _, total, _, off, ns, hn => by
    cases ns with
    | nil => simp [slots, forms, Fmt.membersBytes, memberBytes]
    | cons n ns => simp at hn
  | t :: ts, last, h, total, hw, off, ns, hn => by
    cases ns with
    | nil => simp at hn
    | cons n ns =>
      have ht : ∃ l, t.Readable l ∧ Readables last ts := by
        cases ts with
        | nil => exact ⟨last, by simpa [Readables] using h, by simp [Readables]⟩
        | cons u us => exact ⟨false, by simpa [Readables] using h⟩
      obtain ⟨l, ht1, ht2⟩ := ht
      have e1 := form_bytes t l ht1
      have e2 := forms_bytes ts last ht2 total hw (off + t.fieldSize) ns (by simpa using hn)
      have e3 : writeEnc off total = Fmt.num (Fmt.offWidth 3 total) off := by
        simp only [writeEnc, Fmt.offWidth, Fmt.num, show ¬ (3 ≤ 2) by decide, if_false]
        split
        · rfl
        · split
          · rfl
          · rw [if_neg (by omega)]
      simp only [slots, forms, Fmt.membersBytes, memberBytes, e1, e2, e3, Fmt.dtName, Fmt.dtDims,
        show ¬ (3 ≤ 2) by decide, show ¬ (3 = 1) by decide, if_false, List.append_nil]
end

theorem slots_packed : ∀ (off : Nat) (ns : List Bytes) (ts : List WTy),
    (slots off ns ts).map (fun m => (m.1, m.2.1, if 3 = 1 then some m.2.2 else none)) = packed off ns ts
  | _, [], _ => by simp [slots, packed]
  | _, _ :: _, [] => by simp [slots, packed]
  | off, n :: ns, t :: ts => by
    simp only [slots, packed, List.map_cons, slots_packed _ ns ts]
    simp

mutual
theorem form_dt : ∀ t : WTy, t.form.dt = t.dt
  | .num k => by cases k <;> rfl
  | .fixStr n => rfl
  | .vlenStr => rfl
  | .vlenSeq t => by simp [WTy.form, WTy.dt, Fmt.DType.dt, form_dt t]
  | .opaque n => by simp [WTy.form, WTy.dt, Fmt.DType.dt]
  | .compound names ts => by
    simp only [WTy.form, WTy.dt, Fmt.DType.dt, forms_dt ts]
    rw [slots_packed]
  | .enum k names vals => rfl
  | .ref => rfl
theorem forms_dt : ∀ ts : List WTy, Fmt.typesDt (forms ts) = dts ts
  | [] => rfl
  | t :: ts => by simp [forms, dts, Fmt.typesDt, form_dt t, forms_dt ts]
end

theorem Kind.intSize (k : Kind) : Fmt.IntSize k.size := by
  cases k <;> simp [Fmt.IntSize, Kind.size]

theorem slots_ok (total : Nat) (hlt : total < 2 ^ 32) (hw : ¬ (65536 ≤ total ∧ total < 16777216)) :
    ∀ (off : Nat) (ns : List Bytes) (ts : List WTy), off + fieldSizes ts ≤ total →
      (∀ n ∈ ns, (0 : UInt8) ∉ n) → 0 < total → ∀ m ∈ slots off ns ts, m.2.1 ≤ total ∧ (0 : UInt8) ∉ m.1 ∧ m.2.2 = []
  | _, [], _, _, _, _ => by simp [slots]
  | _, _ :: _, [], _, _, _ => by simp [slots]
  | off, n :: ns, t :: ts, ho, hn, hp => by
    intro m hm
    simp only [fieldSizes] at ho
    simp only [slots, List.mem_cons] at hm
    rcases hm with rfl | hm
    · exact ⟨by show off ≤ total; omega, hn n (by simp), rfl⟩
    · exact slots_ok total hlt hw (off + t.fieldSize) ns ts (by omega) (fun n h => hn n (by simp [h])) hp m hm

mutual
theorem form_readable : ∀ (t : WTy) (last : Bool), t.Readable last → t.form.Readable last
  | .num k, _, _ => by cases k <;> simp [WTy.form, Fmt.DType.Readable, Kind.isFloat, Kind.size, Fmt.IntSize]
  | .fixStr n, _, h => by
    simp only [WTy.Readable] at h
    simp only [WTy.form, Fmt.DType.Readable]
    omega
  | .vlenStr, _, _ => by simp [WTy.form, Fmt.DType.Readable]
  | .vlenSeq t, last, h => by
    have := form_readable t last (by simpa [WTy.Readable] using h)
    simp [WTy.form, Fmt.DType.Readable, this]
  | .opaque n, _, h => by
    simp only [WTy.Readable] at h
    simp [WTy.form, Fmt.DType.Readable, h]
  | .compound names ts, last, h => by
    obtain ⟨h1, h2, h3, h4, h5, h6, h7⟩ := by simpa [WTy.Readable] using h
    have hs := slots_ok (fieldSizes ts) h5 (by omega) 0 names ts (by omega) h3 h4
    simp only [WTy.form, Fmt.DType.Readable, slots_length _ _ _ h1, forms_length]
    refine ⟨by decide, by decide, h4, h5, h1, by omega, ?_, ?_, forms_readable ts last h7⟩
    · intro m hm
      obtain ⟨a, b, c⟩ := hs m hm
      refine ⟨b, ?_, fun h => absurd h (by decide), by simp [c]⟩
      have : fieldSizes ts < 256 ^ Fmt.offWidth 3 (fieldSizes ts) := by
        simp only [Fmt.offWidth, show ¬ (3 ≤ 2) by decide, if_false]
        split
        · simpa
        · split
          · simpa
          · rw [if_neg (by omega)]; simpa using h5
      omega
    · simp only [Fmt.offWidth, show ¬ (3 ≤ 2) by decide, if_false]
      split
      · decide
      · split
        · decide
        · rw [if_neg (by omega)]; decide
  | .enum k names vals, _, h => by
    obtain ⟨h1, h2, h3, h4, h5⟩ := by simpa [WTy.Readable] using h
    exact ⟨by decide, by decide, by decide, by decide, Kind.intSize k, h2, h3, h4, h5⟩
  | .ref, _, _ => by simp [WTy.form, Fmt.DType.Readable]
theorem forms_readable : ∀ (ts : List WTy) (last : Bool), Readables last ts → Fmt.TypesReadable last (forms ts)
  | [], _, _ => by simp [forms, Fmt.TypesReadable]
  | [t], last, h => by
    simp only [forms, Fmt.TypesReadable]
    exact form_readable t last (by simpa [Readables] using h)
  | t :: u :: us, last, h => by
    have h' : t.Readable false ∧ Readables last (u :: us) := by simpa [Readables] using h
    have := forms_readable (u :: us) last h'.2
    simp only [forms, Fmt.TypesReadable] at this ⊢
    exact ⟨form_readable t false h'.1, this⟩
end

/-! ### Messages -/

theorem ofNat_mod (m : Nat) : UInt8.ofNat (m % 256) = UInt8.ofNat m := by
  apply UInt8.toNat_inj.mp
  simp

theorem leEnc1 (n : Nat) : leEnc 1 n = [UInt8.ofNat n] := by
  simp [leEnc, ofNat_mod]

theorem dataspace_form (dims : List Nat) : Fmt.dataspace1 dims none = buildDataspace dims := by
  simp only [Fmt.dataspace1, Fmt.num, leEnc1, buildDataspace, Option.isSome_none, Fmt.bit, Bool.false_eq_true,
    if_false, Option.getD_none, List.flatMap_nil, List.append_nil]
  rfl

theorem layout_form (addr size : Nat) : Fmt.contiguous 3 addr size = buildLayout addr size := rfl

theorem linkInfo_form : Fmt.linkInfo none none Fmt.undefAddr Fmt.undefAddr = buildLinkInfo := by decide

theorem groupInfo_form : Fmt.groupInfo none none = [0, 0] := by decide

theorem link_form (name : Bytes) (addr : Nat) : Fmt.hardLink 0 false none none name addr = buildLink name addr := by
  simp only [Fmt.hardLink, Fmt.num, leEnc1, buildLink, Option.isSome_none, Fmt.bit, Bool.false_eq_true,
    if_false, Option.getD_none, Option.map_none, List.append_nil, Nat.pow_zero]
  rfl

theorem attr_form (name dt ds data : Bytes) : Fmt.attr 1 name dt ds data = buildAttr name dt ds data := by
  rw [buildAttr_eq]
  have e : pad8 (8 + (name.length + 1)) = pad8 (name.length + 1) := by
    simp [pad8]
  rw [e]
  simp only [Fmt.attr, Fmt.num, Fmt.padded, pad8, if_true, show ¬ (1 = 3) by decide, if_false, List.append_nil,
    List.length_append, List.length_cons, List.length_nil, List.append_assoc, leEnc1, Nat.zero_add]
  rfl

end Verif.H5
