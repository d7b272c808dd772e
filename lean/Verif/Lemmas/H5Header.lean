import Verif.Lemmas.H5DType
import Verif.Lemmas.H5Object
import Verif.Lemmas.H5Super
import Verif.Lemmas.H5Checksum
/-!
The reader on object headers laid out as in `Spec/H5Header`.
-/
namespace Verif.H5
open Fmt

/-- A parser that reads exactly the bytes `b` and gives `a`. -/
def Reads {α : Type} (p : P α) (b : Bytes) (a : α) : Prop :=
  ∀ rest, p ⟨0, b ++ rest⟩ = .ok (a, ⟨b.length, rest⟩)

theorem handle_of {α : Type} {p : P α} {b : Bytes} {a : α} (h : Reads p b a) (k : Nat)
    (f : α → St) :
    ∃ t : S, t.rem.all (· == 0) = true ∧
      (p >>= fun x => (pure (f x) : P St)) ⟨0, b ++ List.replicate k 0⟩ = .ok (f a, t) := by
  refine ⟨⟨b.length, List.replicate k 0⟩, by simp, ?_⟩
  rw [P.bind_apply, h]
  rfl

theorem setLayout_contig (i : Info) (a s : Nat) :
    setLayout { i with isGroup := false } (if a = undefAddr then .missing [] else .contiguous a s) =
      (Message.contiguous 3 a s).effect i := by
  unfold Message.effect
  by_cases h : a = undefAddr <;> simp [h, setLayout]

theorem setLayout_chunked (i : Info) (a : Nat) (c : List Nat) (s : Nat) (hc : c ≠ []) :
    setLayout { i with isGroup := false } (if a = undefAddr then .missing c else .chunked a c s) =
      (Message.chunked a c s).effect i := by
  unfold Message.effect
  cases c with
  | nil => exact absurd rfl hc
  | cons x xs => by_cases h : a = undefAddr <;> simp [h, setLayout]

/-- What the reader does with a message. -/
theorem handle_fmt (m : Message) (st : St) (w : Task → St → Res St) (v fl k : Nat) (hm : m.OK)
    (ha : m.Allowed st.info) (hk : k = 0 ∨ m.Tolerant) :
    ∃ t : S, t.rem.all (· == 0) = true ∧
      handle w v fl m.ty (m.bytes.length + k) st ⟨0, m.bytes ++ List.replicate k 0⟩ =
        match m.run w v fl st with
        | .ok st' => .ok (st', t)
        | .err e => .err e
        | .panic => .panic := by
  cases m with
  | nil b =>
    refine ⟨⟨b.length + k, []⟩, by simp, ?_⟩
    have : handle w v fl 0 (b.length + k) st = (do
      skip (b.length + k)
      pure st) := rfl
    simp only [Message.ty, Message.bytes, Message.run, Message.effect]
    rw [this, P.bind_apply]
    simp only [skip, P.bind_apply]
    rw [rdN_all _ _ _ (by simp)]
    simp [P.pure_apply]
  | dataspace sp =>
    exact handle_of (p := readDataspace) (b := sp.bytes) (a := sp.dims) (fun rest => by
      simpa using (space_ok sp hm).apply 0 rest) k
      (fun x => { st with info := { st.info with isGroup := false, dims := some x } })
  | linkInfo mi bo h t =>
    obtain ⟨h1, h2, h3, h4⟩ := hm
    obtain ⟨t', ht, he⟩ := handle_of (p := readLinkInfo) (a := (h, t)) (fun rest => by
      simpa using fmt_linkInfo mi bo h t 0 rest h1 h2 h3 h4) k
      (fun x => { st with info := { st.info with isGroup := true, link := some x } })
    refine ⟨t', ht, ?_⟩
    have hal : st.info.link = none := ha
    have : ∀ size, handle w v fl 2 size st = (do
      P.assert st.info.link.isNone .assertFail
      let l ← readLinkInfo
      pure { st with info := { st.info with isGroup := true, link := some l } }) := fun _ => rfl
    simp only [Message.ty, Message.bytes, Message.run, Message.effect]
    rw [this, P.bind_apply, hal]
    simp only [Option.isNone_none, P.assert_true]
    exact he
  | datatype t =>
    have hal : st.info.layout = [] := ha
    have hp : parseDatatype ⟨0, t.bytes ++ List.replicate k 0⟩ =
        .ok (t.dt, ⟨t.bytes.length, List.replicate k 0⟩) := by
      rcases hk with rfl | h
      · simpa using (parseDatatype_fmt t true hm).all 0
      · simpa using (parseDatatype_fmt t false h).apply 0 (List.replicate k 0)
    refine ⟨⟨t.bytes.length, List.replicate k 0⟩, by simp, ?_⟩
    have : ∀ size, handle w v fl 3 size st = (do
      let r ← remLen
      let t ← sub r parseDatatype
      pure { st with info := { st.info with isGroup := false, dt := some t, layout := [] } }) :=
      fun _ => rfl
    simp only [Message.ty, Message.bytes, Message.run, Message.effect]
    rw [this, P.bind_apply, remLen_apply]
    simp only [P.bind_apply, sub, List.take_length, List.drop_length, hp]
    simp only [P.pure_apply, Nat.zero_add, List.append_nil]
    rw [← hal]
  | fillOld b =>
    have hb : Reads (do let n ← read32; rdN n) (num 4 b.length ++ b) b := by
      intro rest
      rw [List.append_assoc, P.bind_apply, num_eq, read32_app _ _ _ hm]
      simp only
      rw [rdN_append _ _ _ _ rfl]
      simp
    obtain ⟨t', ht, he⟩ := handle_of hb k
      (fun x => { st with info := { st.info with isGroup := false, fillValueOld := some x } })
    refine ⟨t', ht, ?_⟩
    have : ∀ size, handle w v fl 4 size st = (do
      let n ← read32
      let b ← rdN n
      pure { st with info := { st.info with isGroup := false, fillValueOld := some b } }) :=
      fun _ => rfl
    simp only [Message.ty, Message.bytes, Message.run, Message.effect]
    rw [this]
    rw [P.bind_apply] at he ⊢
    rw [P.bind_apply] at he
    revert he
    cases read32 ⟨0, num 4 b.length ++ b ++ List.replicate k 0⟩ with
    | ok x =>
      intro he
      simpa only [P.bind_apply] using he
    | err e => intro he; cases he
    | panic => intro he; cases he
  | fill1 a wr val =>
    obtain ⟨⟨h1, h2, h3, h4⟩, h5⟩ := hm
    obtain ⟨t', ht, he⟩ := handle_of (p := readFillValue) (a := fillOf val) (b := Fmt.fill1 a wr val)
      (fun rest => by
        simpa using fmt_fill12 1 a wr 0 val rest (.inl rfl) ⟨h1, h2⟩ h3 h5 h4) k
      (fun x => { st with info := { st.info with isGroup := false, fillValue := x.or st.info.fillValue } })
    refine ⟨t', ht, he.trans ?_⟩
    cases val with
    | undefined => rfl
    | notSet => rfl
    | value b => cases b <;> rfl
  | fill2 a wr val =>
    obtain ⟨⟨h1, h2, h3, h4⟩, h5⟩ := hm
    obtain ⟨t', ht, he⟩ := handle_of (p := readFillValue) (a := fillOf val) (b := Fmt.fill2 a wr val)
      (fun rest => by
        simpa using fmt_fill12 2 a wr 0 val rest (.inr rfl) ⟨h1, h2⟩ h3 h5 h4) k
      (fun x => { st with info := { st.info with isGroup := false, fillValue := x.or st.info.fillValue } })
    refine ⟨t', ht, he.trans ?_⟩
    cases val with
    | undefined => rfl
    | notSet => rfl
    | value b => cases b <;> rfl
  | fill3 a wr val =>
    obtain ⟨h1, h2, h3, h4⟩ := hm
    obtain ⟨t', ht, he⟩ := handle_of (p := readFillValue) (a := fillOf val) (b := Fmt.fill3 a wr val)
      (fun rest => by
        simpa using fmt_fill3 a wr 0 val rest ⟨h1, h2⟩ h3 h4) k
      (fun x => { st with info := { st.info with isGroup := false, fillValue := x.or st.info.fillValue } })
    refine ⟨t', ht, he.trans ?_⟩
    cases val with
    | undefined => rfl
    | notSet => rfl
    | value b => cases b <;> rfl
  | link lw ts o c n a =>
    obtain ⟨h1, h2, h3, h4, h5⟩ := hm
    refine ⟨⟨(hardLink lw ts o c n a).length + k, []⟩, rfl, ?_⟩
    have hl := fmt_hardLink_pad lw ts o c n a 0 k h1 h2 h3 h4 h5
    have : ∀ size, handle w v fl 6 size st = (do
      let (name, addr, co) ← readLink
      P.lift (addLink w name addr co st)) := fun _ => rfl
    simp only [Message.ty, Message.bytes, Message.run]
    rw [this, P.bind_apply, hl]
    simp only [P.lift, Nat.zero_add]
    cases addLink w n a (o.getD 0) st <;> rfl
  | compact ver d =>
    obtain ⟨h1, h2⟩ := hm
    exact handle_of (p := readLayout) (b := Fmt.compact ver d) (a := Layout.compact d) (fun rest => by
      simpa using fmt_compact ver 0 d rest h1 h2) k
      (fun x => { st with info := setLayout { st.info with isGroup := false } x })
  | contiguous ver a s =>
    obtain ⟨h1, h2, h3⟩ := hm
    obtain ⟨t', ht, he⟩ := handle_of (p := readLayout) (b := Fmt.contiguous ver a s)
      (a := if a = undefAddr then .missing [] else .contiguous a s) (fun rest => by
      simpa using fmt_contiguous ver a s 0 rest h1 h2 h3) k
      (fun x => { st with info := setLayout { st.info with isGroup := false } x })
    refine ⟨t', ht, he.trans ?_⟩
    rw [setLayout_contig]
    rfl
  | chunked a c e =>
    obtain ⟨h1, h2, h3, h4, h5⟩ := hm
    obtain ⟨t', ht, he⟩ := handle_of (p := readLayout) (b := Fmt.chunked a c e)
      (a := if a = undefAddr then .missing c else .chunked a c e) (fun rest => by
      simpa using fmt_chunked a c e 0 rest h1 h2 h3 h4 h5) k
      (fun x => { st with info := setLayout { st.info with isGroup := false } x })
    refine ⟨t', ht, he.trans ?_⟩
    rw [setLayout_chunked _ _ _ _ h2]
    rfl
  | groupInfo ph est =>
    obtain ⟨h1, h2⟩ := hm
    refine ⟨⟨(Fmt.groupInfo ph est).length + k, []⟩, rfl, ?_⟩
    have : ∀ size, handle w v fl 10 size st = (do
      readGroupInfo
      pure { st with info := { st.info with isGroup := true } }) := fun _ => rfl
    simp only [Message.ty, Message.bytes, Message.run, Message.effect]
    rw [this, P.bind_apply, fmt_groupInfo_pad ph est 0 k h1 h2]
    simp [P.pure_apply]
  | pipeline1 fs =>
    obtain ⟨h1, h2⟩ := hm
    exact handle_of (p := readFilterPipeline) (a := fs.map fun f => (f.id, f.cdv)) (fun rest => by
      simpa using fmt_pipeline1 fs rest h1 h2) k
      (fun x => { st with info := { st.info with filters := st.info.filters ++ x } })
  | pipeline2 fs =>
    obtain ⟨h1, h2⟩ := hm
    exact handle_of (p := readFilterPipeline) (a := fs.map fun f => (f.id, f.cdv)) (fun rest => by
      simpa using fmt_pipeline2 fs 0 rest h1 h2) k
      (fun x => { st with info := { st.info with filters := st.info.filters ++ x } })
  | attr ver n t sp x val =>
    obtain ⟨h1, h2, h3, h4, h5, h6, h7⟩ := hm
    obtain rfl : k = 0 := by
      rcases hk with h | h
      · exact h
      · exact absurd h id
    refine ⟨⟨(Fmt.attr ver n t.bytes sp.bytes x).length, []⟩, rfl, ?_⟩
    have : ∀ size, handle w v fl 12 size st = (do
      let a ← readAttribute
      pure { st with info := { st.info with attrs := st.info.attrs ++ [a] } }) := fun _ => rfl
    simp only [Message.ty, Message.bytes, Message.run, Message.effect, List.replicate_zero, List.append_nil]
    rw [this, P.bind_apply, fmt_attr ver n x t sp h1 h2 h3 h4 h5 h6, h7]
    rfl
  | comment c =>
    refine ⟨⟨c.length + 1, List.replicate k 0⟩, by simp, ?_⟩
    have : ∀ size, handle w v fl 13 size st = (do
      readComment
      pure st) := fun _ => rfl
    have hf : (c ++ [0] ++ List.replicate k 0).findIdx? (· == 0) = some c.length := by
      rw [List.findIdx?_append, List.findIdx?_append, List.findIdx?_eq_none_iff.mpr]
      · simp
      · intro x hx
        simp only [beq_eq_false_iff_ne]
        rintro rfl
        exact hm hx
    simp only [Message.ty, Message.bytes, Message.run, Message.effect]
    rw [this, P.bind_apply]
    simp only [readComment, hf, P.pure_apply, Nat.zero_add]
    congr 3
    rw [List.drop_left' (by simp)]
  | modifiedOld d =>
    have hd : d.length = 14 := hm
    refine ⟨⟨16, List.replicate k 0⟩, by simp, ?_⟩
    have : ∀ size, handle w v fl 14 size st = (do
      let _ ← rdN 14
      checkZeroes 2
      pure st) := fun _ => rfl
    have hz := checkZeroes_ok 2 14 (List.replicate k 0)
    simp only [Message.ty, Message.bytes, Message.run, Message.effect, List.append_assoc]
    rw [this, P.bind_apply, rdN_append _ _ _ _ hd]
    simp only [P.bind_apply, Nat.zero_add]
    rw [show ([0, 0] : Bytes) = List.replicate 2 0 from rfl, hz]
    rfl
  | symbolTable b h =>
    obtain ⟨h1, h2⟩ := hm
    refine ⟨⟨16, List.replicate k 0⟩, by simp, ?_⟩
    have : ∀ size, handle w v fl 17 size st = (do
      let btree ← read64
      let heap ← read64
      P.lift (w (.symtab btree heap) { st with info := { st.info with isGroup := true } })) := fun _ => rfl
    simp only [Message.ty, Message.bytes, Message.run, num_eq, List.append_assoc]
    rw [this]
    simp only [P.bind_apply, read64_app _ _ _ h1, read64_app _ _ _ h2, P.lift]
    cases w (.symtab b h) { st with info := { st.info with isGroup := true } } <;> rfl
  | attributeInfo mi bo h t =>
    obtain ⟨h1, h2, h3, h4⟩ := hm
    obtain ⟨t', ht, he⟩ := handle_of (p := readAttributeInfo) (a := (h, t)) (fun rest => by
      simpa using fmt_attributeInfo mi bo h t 0 rest h1 h2 h3 h4) k
      (fun x => { st with info := { st.info with attr := some x } })
    refine ⟨t', ht, ?_⟩
    have hal : st.info.attr = none := ha
    have : ∀ size, handle w v fl 21 size st = (do
      P.assert st.info.attr.isNone .assertFail
      let l ← readAttributeInfo
      pure { st with info := { st.info with attr := some l } }) := fun _ => rfl
    simp only [Message.ty, Message.bytes, Message.run, Message.effect]
    rw [this, P.bind_apply, hal]
    simp only [Option.isNone_none, P.assert_true]
    exact he
  | modified s =>
    refine ⟨⟨8, List.replicate k 0⟩, by simp, ?_⟩
    have : ∀ size, handle w v fl 18 size st = (do
      let _ ← read8
      let z ← read8
      checkVal 0 z
      let z ← read8
      checkVal 0 z
      let z ← read8
      checkVal 0 z
      let _ ← read32
      pure st) := fun _ => rfl
    simp only [Message.ty, Message.bytes, Message.run, Message.effect, num_eq, List.append_assoc]
    rw [this]
    simp only [P.bind_apply, read8_app _ _ _ (show 1 < 256 by omega),
      read8_app _ _ _ (show 0 < 256 by omega), checkVal, BEq.rfl, P.assert_true,
      P.pure_apply, read32_app _ _ _ hm]
  | continuation o s =>
    obtain ⟨h1, h2⟩ := hm
    refine ⟨⟨16, List.replicate k 0⟩, by simp, ?_⟩
    have : ∀ size, handle w v fl 16 size st = (do
      let offset ← read64
      let csize ← read64
      P.lift (w (.cont offset csize v fl) st)) := fun _ => rfl
    simp only [Message.ty, Message.bytes, Message.run, num_eq, List.append_assoc]
    rw [this]
    simp only [P.bind_apply, read64_app _ _ _ h1, read64_app _ _ _ h2, P.lift]
    cases w (.cont o s v fl) st <;> rfl
  | refCount n =>
    refine ⟨⟨5, List.replicate k 0⟩, by simp, ?_⟩
    have : ∀ size, handle w v fl 22 size st = (do
      let v ← read8
      checkVal 0 v
      let _ ← read32
      pure st) := fun _ => rfl
    simp only [Message.ty, Message.bytes, Message.run, Message.effect, num_eq, List.append_assoc]
    rw [this]
    simp only [P.bind_apply,
      read8_app _ _ _ (show 0 < 256 by omega), checkVal, BEq.rfl, P.assert_true,
      P.pure_apply, read32_app _ _ _ hm]

/-! ### Blocks of messages -/

theorem Message.ty_lt (m : Message) : m.ty < 256 := by
  cases m <;> simp [Message.ty]

theorem frame2_length (o : Option Nat) (f : Nat) (m : Message) :
    (frame2 o f m).length = 4 + (if o.isSome then 2 else 0) + m.bytes.length := by
  cases o <;> simp [frame2, num_eq] <;> omega

theorem readHead_frame2 (tracked : Bool) (o f : Nat) (m : Message) (rest : Bytes) (p C flags : Nat)
    (hl : m.bytes.length < 65536) (hf : f < 256) (ho : o < 65536)
    (hC : p + (frame2 (if tracked then some o else none) f m).length ≤ C)
    (hfl : flags / 4 % 2 = if tracked then 1 else 0) :
    readHead 2 flags C ⟨p, frame2 (if tracked then some o else none) f m ++ rest⟩ =
      .ok (if m.bytes = [] then .next else .msg m.ty m.bytes.length,
        ⟨p + (4 + if tracked then 2 else 0), m.bytes ++ rest⟩) := by
  rw [frame2_length] at hC
  have hz : (m.bytes.length = 0 ∧ 1 < 2) = (m.bytes = []) := by
    simp [List.length_eq_zero_iff]
  have h21 : (2 = 1) = False := by simp
  have h12 : (1 < 2) = True := by simp
  have e2 : (decide (2 ≠ 1) || decide (m.bytes.length ≤ (m.bytes ++ rest).length)) = true := by simp
  have e1 : ¬ (p + 1 + 2 = C) := by omega
  cases tracked with
  | false =>
    have hfl' : ¬ (flags / 4 % 2 = 1) := by simp [hfl]
    have e3 : decide (m.bytes.length ≤ C - (p + 1 + 2 + 1)) = true := by
      simp only [decide_eq_true_eq]; simp at hC; omega
    simp only [frame2, num_eq, Bool.false_eq_true, ↓reduceIte, Option.map_none, Option.getD_none,
      List.append_assoc, List.nil_append]
    simp only [readHead, h21, ↓reduceIte, P.bind_apply, read8_app _ _ _ (Message.ty_lt m), read16_app _ _ _ hl,
      and_false, count, e1, read8_app _ _ _ hf, P.pure_apply, remLen_apply, hfl', false_and, hz, h12,
      and_true, e2, e3, P.assert_true]
    by_cases hd : m.bytes = []
    · simp only [hd, List.length_nil, ↓reduceIte, P.pure_apply]
    · have hl : ¬ (m.bytes.length = 0) := by simpa using hd
      simp only [hd, hl, ↓reduceIte, P.bind_apply, remLen_apply, e2, P.assert_true, count, h12, e3,
        P.pure_apply]
  | true =>
    have hfl' : flags / 4 % 2 = 1 := by simp [hfl]
    have e3 : decide (m.bytes.length ≤ C - (p + 1 + 2 + 1 + 2)) = true := by
      simp only [decide_eq_true_eq]; simp at hC; omega
    have e4 : ∀ x : Bytes, ¬ ((leEnc 2 o ++ x).length < 2) := by
      intro x; simp only [List.length_append, leEnc_length]; omega
    simp only [frame2, num_eq, ↓reduceIte, Option.map_some, Option.getD_some,
      List.append_assoc]
    simp only [readHead, h21, ↓reduceIte, P.bind_apply, read8_app _ _ _ (Message.ty_lt m), read16_app _ _ _ hl,
      and_false, count, e1, read8_app _ _ _ hf, P.pure_apply, remLen_apply, hfl', e4, hz, h12,
      and_true, read16_app _ _ _ ho]
    by_cases hd : m.bytes = []
    · simp only [hd, List.length_nil, ↓reduceIte, P.pure_apply]
    · have hl : ¬ (m.bytes.length = 0) := by simpa using hd
      simp only [hd, hl, ↓reduceIte, P.bind_apply, remLen_apply, e2, P.assert_true, count, h12, e3,
        P.pure_apply]

/-- The gap after the messages is passed over. -/
theorem msgLoop_gap (w : Task → St → Res St) (tracked : Bool) (flags C fuel p gap : Nat) (st : St)
    (hfl : flags / 4 % 2 = if tracked then 1 else 0) (hC : p + gap = C)
    (hg : gap < 4 + if tracked then 2 else 0) :
    msgLoop w 2 flags C (fuel + 1) st ⟨p, List.replicate gap 0⟩ = .ok (st, ⟨C, []⟩) := by
  have hz : ∀ q k, checkZeroes k ⟨q, List.replicate k 0⟩ = .ok ((), ⟨q + k, []⟩) := by
    intro q k
    simpa using checkZeroes_ok k q []
  by_cases h3 : gap < 3
  · simp only [msgLoop, P.bind_apply, remLen_apply, List.length_replicate, h3, ↓reduceIte, hz,
      P.pure_apply, hC]
  · obtain ⟨n, rfl⟩ : ∃ n, gap = n + 3 := ⟨gap - 3, by omega⟩
    have h21 : (2 = 1) = False := by simp
    have r1 : ∀ q r, read8 ⟨q, 0 :: r⟩ = .ok (0, ⟨q + 1, r⟩) := fun q r => read8_app q 0 r (by omega)
    have r2 : ∀ q r, read16 ⟨q, 0 :: 0 :: r⟩ = .ok (0, ⟨q + 2, r⟩) := fun q r => read16_app q 0 r (by omega)
    by_cases hn : n = 0
    · subst hn
      have hC' : p + 1 + 2 = C := by omega
      simp only [msgLoop, P.bind_apply, remLen_apply, List.length_replicate, h3, ↓reduceIte,
        readHead, h21, and_false, List.replicate_succ, r1, r2, count, hC', P.pure_apply,
        List.length_cons, List.length_nil]
      have := hz C 0
      simp only [List.replicate_zero, Nat.add_zero] at this
      simp only [List.replicate_zero, List.length_nil, this]
    · obtain ⟨j, rfl⟩ : ∃ j, n = j + 1 := ⟨n - 1, by omega⟩
      have hC' : ¬ (p + 1 + 2 = C) := by omega
      cases tracked with
      | false => exfalso; simp only [Bool.false_eq_true, ↓reduceIte] at hg; omega
      | true =>
        have hj : j < 2 := by simp at hg; omega
        have hfl' : flags / 4 % 2 = 1 := by simp [hfl]
        have hlen : ¬ ((0 : UInt8) :: 0 :: 0 :: 0 :: List.replicate j 0).length < 3 := by
          simp
        simp only [msgLoop, P.bind_apply, remLen_apply, List.replicate_succ, hlen, ↓reduceIte,
          readHead, h21, and_false, r1, r2, count, hC', P.pure_apply, hfl', List.length_replicate, hj, and_self]
        simp only [hz]
        rw [show p + 1 + 2 + 1 + j = C by omega]

theorem nil_run (m : Message) (w : Task → St → Res St) (v fl : Nat) (st : St) (hm : m.OK) (h : m.bytes = []) :
    m.run w v fl st = .ok st := by
  have hl : m.bytes.length = 0 := by simp [h]
  cases m <;>
    simp [Message.bytes, Fmt.linkInfo, Fmt.fill1, Fmt.fill2, Fmt.fill3,
      hardLink, Fmt.compact, Fmt.contiguous, Fmt.chunked, Fmt.groupInfo, Fmt.pipeline1, Fmt.pipeline2,
      Fmt.attr, Fmt.attributeInfo, num_eq] at hl
  case nil => rfl
  case fill1 v => exfalso; have := congrArg List.length hl; cases v <;> simp at this
  case fill2 v => exfalso; have := congrArg List.length hl; cases v <;> simp at this
  case fill3 v => exfalso; have := congrArg List.length hl; cases v <;> simp at this
  case datatype t =>
    exfalso
    have := (parseDatatype_fmt t true hm).all 0
    rw [hl] at this
    cases this
  case dataspace sp =>
    exfalso
    have := (space_ok sp hm).all 0
    rw [hl] at this
    cases this

theorem msgLoop_frames2 (w : Task → St → Res St) (tracked : Bool) (flags C gap : Nat)
    (hfl : flags / 4 % 2 = if tracked then 1 else 0) (hg : gap < 4 + if tracked then 2 else 0)
    (ms : List (Nat × Nat × Message)) (hm : Fits2 ms) (fuel p : Nat) (st : St)
    (ha : AllAllowed w 2 flags (ms.map (·.2.2)) st)
    (hC : p + ((frames2 tracked ms).length + gap) = C)
    (hfuel : (frames2 tracked ms).length + gap < fuel) :
    msgLoop w 2 flags C fuel st ⟨p, frames2 tracked ms ++ List.replicate gap 0⟩ =
      match runMessages w 2 flags (ms.map (·.2.2)) st with
      | .ok st' => .ok (st', ⟨C, []⟩)
      | .err e => .err e
      | .panic => .panic := by
  induction ms generalizing fuel p st with
  | nil =>
    cases fuel with
    | zero => omega
    | succ fuel =>
      simp only [frames2, List.flatMap_nil, List.length_nil, Nat.zero_add, List.nil_append] at hC ⊢
      exact msgLoop_gap w tracked flags C fuel p gap st hfl hC hg
  | cons x ms ih =>
    obtain ⟨f, o, m⟩ := x
    obtain ⟨hf, ho, hok, hl⟩ := hm (f, o, m) (by simp)
    simp only at hf ho hok hl
    have hfr : frames2 tracked ((f, o, m) :: ms) =
        frame2 (if tracked then some o else none) f m ++ frames2 tracked ms := by
      simp [frames2]
    have hfl2 := frame2_length (if tracked then some o else none) f m
    rw [hfr, List.length_append] at hC hfuel
    have hlen4 : 4 + (if tracked then 2 else 0) + m.bytes.length =
        (frame2 (if tracked then some o else none) f m).length := by
      rw [hfl2]; cases tracked <;> simp
    cases fuel with
    | zero => omega
    | succ fuel =>
      have h3 : ¬ ((frame2 (if tracked then some o else none) f m ++
          (frames2 tracked ms ++ List.replicate gap 0)).length < 3) := by
        rw [List.length_append]; omega
      rw [hfr, List.append_assoc]
      simp only [msgLoop, P.bind_apply, remLen_apply, h3, ↓reduceIte,
        readHead_frame2 tracked o f m _ p C flags hl hf ho (by omega) hfl]
      simp only [List.map_cons, AllAllowed] at ha
      by_cases hd : m.bytes = []
      · have hrun := nil_run m w 2 flags st hok hd
        have := ih (fun m h => hm m (by simp [h])) fuel (p + (4 + if tracked then 2 else 0)) st
          (ha.2 st hrun) (by rw [hd, List.length_nil] at hlen4; omega) (by omega)
        simp only [hd, ↓reduceIte, List.nil_append, this, List.map_cons, runMessages, hrun, Res.bind_ok]
      · obtain ⟨t, ht, he⟩ := handle_fmt m st w 2 flags 0 hok ha.1 (.inl rfl)
        simp only [List.replicate_zero, List.append_nil, Nat.add_zero] at he
        simp only [hd, ↓reduceIte, msgSub, or_true, List.take_left,
          List.drop_left, P.bind_apply, he, List.map_cons, runMessages]
        cases hr : m.run w 2 flags st with
        | err e => rfl
        | panic => rfl
        | ok st' =>
          have := ih (fun m h => hm m (by simp [h])) fuel
            (p + (4 + if tracked then 2 else 0) + m.bytes.length) st'
            (ha.2 st' hr) (by omega) (by omega)
          simp only [ht, ↓reduceIte, Res.bind_ok, this]

theorem At.app {file b c : Bytes} {a : Nat} (h : At file a (b ++ c)) :
    At file a b ∧ At file (a + b.length) c := by
  obtain ⟨post, hp⟩ := h
  refine ⟨⟨c ++ post, by rw [← List.append_assoc]; exact hp⟩, ⟨post, ?_⟩⟩
  rw [← List.drop_drop, ← hp, List.append_assoc, List.drop_left]

theorem At.le {file b : Bytes} {a : Nat} (h : At file a b) (hb : b ≠ []) :
    a + b.length ≤ file.length := by
  obtain ⟨pre, post, rfl, rfl⟩ := h.split hb
  simp only [List.length_append]
  omega

theorem seekRun_at {α : Type} {file b : Bytes} {a n : Nat} (p : P α) (h : At file a b)
    (hn : b.length = n) (hf : file.length < 2 ^ 63) (hs : 0 < n) :
    seekRun file a (n : Int) p = (p ⟨0, b⟩).map (·.1) := by
  obtain ⟨pre, post, rfl, rfl⟩ := h.split (by intro e; subst e; simp at hn; omega)
  exact seekRun_block pre b post p n hn hf hs

/-- A block of messages read at an address; an empty block stands for the rest of the file. -/
theorem seekRun_common {file b : Bytes} {a : Nat} (p : P St) (r : Res St) (h : At file a b)
    (ha : a + b.length ≤ file.length) (hf : file.length < 2 ^ 63)
    (hp : ∀ q rest, p ⟨q, b ++ rest⟩ =
      match r with
      | .ok st' => .ok (st', ⟨q + b.length, rest⟩)
      | .err e => .err e
      | .panic => .panic) :
    seekRun file a (b.length : Int) p = r := by
  have key : ∀ s : S, (∃ rest, s.rem = b ++ rest) → (p s).map (·.1) = r := by
    rintro ⟨q, x⟩ ⟨rest, hr⟩
    simp only at hr
    subst hr
    rw [hp]
    cases r <;> rfl
  obtain ⟨post, hpost⟩ := h
  unfold seekRun newSeek
  rw [i64_of_lt (by omega), wrap64_of (by omega) (by omega)]
  rw [if_pos (by omega)]
  simp only
  rw [if_neg (by omega)]
  apply key
  simp only [← hpost]
  split
  · refine ⟨post, ?_⟩
    rw [List.take_of_length_le]
    have := congrArg List.length hpost
    rw [List.length_drop] at this
    omega
  · exact ⟨[], by simp⟩

theorem readCommon_frames2 (w : Task → St → Res St) (tracked : Bool) (flags gap : Nat)
    (hfl : flags / 4 % 2 = if tracked then 1 else 0) (hg : gap < 4 + if tracked then 2 else 0)
    (ms : List (Nat × Nat × Message)) (hm : Fits2 ms) (st : St)
    (ha : AllAllowed w 2 flags (ms.map (·.2.2)) st) (p : Nat) (rest : Bytes) :
    readCommon w 2 flags ((frames2 tracked ms).length + gap) st
        ⟨p, (frames2 tracked ms ++ List.replicate gap 0) ++ rest⟩ =
      match runMessages w 2 flags (ms.map (·.2.2)) st with
      | .ok st' => .ok (st', ⟨p + ((frames2 tracked ms ++ List.replicate gap 0)).length, rest⟩)
      | .err e => .err e
      | .panic => .panic := by
  have := msgLoop_frames2 w tracked flags ((frames2 tracked ms).length + gap) gap hfl hg ms hm
    ((frames2 tracked ms).length + gap + 1) 0 st ha (by omega) (by omega)
  have hl : (frames2 tracked ms ++ List.replicate gap 0).length = (frames2 tracked ms).length + gap := by
    simp
  unfold readCommon sub
  rw [← hl] at this ⊢
  simp only [List.take_left, List.drop_left, P.bind_apply, remLen_apply, this]
  cases runMessages w 2 flags (ms.map (·.2.2)) st with
  | ok st' => simp only [List.nil_append]
  | err e => rfl
  | panic => rfl

theorem readEnc_ok (w n p : Nat) (hw : w ≤ 3) (hn : n < 256 ^ 2 ^ w) (rest : Bytes) :
    readEnc (2 ^ w) ⟨p, leEnc (2 ^ w) n ++ rest⟩ = .ok (n, ⟨p + 2 ^ w, rest⟩) := by
  obtain rfl | rfl | rfl | rfl : w = 0 ∨ w = 1 ∨ w = 2 ∨ w = 3 := by omega
  · exact read8_app _ _ _ hn
  · exact read16_app _ _ _ hn
  · exact read32_app _ _ _ hn
  · exact read64_app _ _ _ hn

theorem Head2.flags_bits (h : Head2) (hw : h.w ≤ 3) :
    h.flags < 64 ∧ h.flags % 4 = h.w ∧ (h.flags / 4 % 2 = if h.tracked then 1 else 0) ∧
      (h.flags / 16 % 2 = if h.phase.isSome then 1 else 0) ∧
      (h.flags / 32 % 2 = if h.times.isSome then 1 else 0) := by
  obtain ⟨w, t, i, ti, ph, g⟩ := h
  simp only [Head2.flags, bit] at *
  cases t <;> cases i <;> cases ti <;> cases ph <;> simp <;> omega

/-- Reading a version 2 header, wherever it is in the file. -/
theorem walk_header2 (file : Bytes) (h : Head2) (ms : List (Nat × Nat × Message)) (addr fuel : Nat)
    (st : St) (hh : h.OK) (hm : Fits2 ms)
    (ha : AllAllowed (walk file fuel) 2 h.flags (ms.map (·.2.2))
      { st with info := { st.info with addr := addr }, kids := [] })
    (hsize : (frames2 h.tracked ms).length + h.gap < 256 ^ 2 ^ h.w)
    (hbody : (header2Body h ms).length < 2 ^ 32)
    (hat : At file addr (header2 h ms)) (hlen : file.length < 2 ^ 63) (haddr : 0 < addr) :
    walk file (fuel + 1) (.header addr) st =
      runMessages (walk file fuel) 2 h.flags (ms.map (·.2.2))
        { st with info := { st.info with addr := addr }, kids := [] } := by
  obtain ⟨hw, ht, hp, hg⟩ := hh
  obtain ⟨b1, b2, b3, b4, b5⟩ := Head2.flags_bits h hw
  have hpos := Nat.two_pow_pos h.w
  have hne : header2 h ms ≠ [] := by
    intro e; have := congrArg List.length e; simp [header2, header2Body] at this
  have hle := hat.le hne
  have hl2 : (header2 h ms).length = (header2Body h ms).length + 4 := by simp [header2, num_eq]
  obtain ⟨sum, hs, hsum⟩ := checksum_lookup3 (header2Body h ms) hbody
  have hsn : (Lookup3.hash (header2Body h ms)).toNat = sum.toNat := by rw [← hsum]; rfl
  -- the parts
  have hat' := hat
  unfold header2 at hat'
  obtain ⟨aB, aC⟩ := hat'.app
  unfold header2Body at aB
  simp only [num_eq] at aB
  obtain ⟨aB, aG⟩ := aB.app
  obtain ⟨aB, aF⟩ := aB.app
  obtain ⟨aB, aN⟩ := aB.app
  obtain ⟨aB, aP⟩ := aB.app
  obtain ⟨aH, aT⟩ := aB.app
  have lH : ([0x4f, 0x48, 0x44, 0x52] ++ leEnc 1 2 ++ leEnc 1 h.flags : Bytes).length = 6 := by simp
  rw [lH] at aT
  simp only [List.length_append, leEnc_length, List.length_cons, List.length_nil, Nat.zero_add,
    Nat.reduceAdd] at aP aN aF
  have lBody : (header2Body h ms).length = 6 + (h.times.getD []).length + (h.phase.getD []).length +
      2 ^ h.w + ((frames2 h.tracked ms).length + h.gap) := by
    simp [header2Body, num_eq]; omega
  -- the magic number
  have hmag : isMagic file ohdr addr = .ok true := by
    unfold isMagic
    rw [if_neg (by unfold invalidAddress; omega), if_neg (by omega)]
    congr 1
    obtain ⟨post, hpost⟩ := aH
    rw [← hpost]
    rfl
  have rH : seekRun file addr 6 (do
      checkMagic 4 ohdr
      let version ← read8
      checkVal 2 version
      let flags ← read8
      P.assert (decide (flags < 64)) .assertFail
      pure flags) = .ok h.flags := by
    have := seekRun_at (do
      checkMagic 4 ohdr
      let version ← read8
      checkVal 2 version
      let flags ← read8
      P.assert (decide (flags < 64)) .assertFail
      pure flags) aH lH hlen (by omega)
    refine this.trans ?_
    have hmg : checkMagic 4 ohdr ⟨0, ohdr ++ (leEnc 1 2 ++ (leEnc 1 h.flags ++ []))⟩ =
        .ok ((), ⟨4, leEnc 1 2 ++ (leEnc 1 h.flags ++ [])⟩) := by
      unfold checkMagic
      rw [P.bind_apply, rdN_append 4 0 ohdr _ rfl]
      rfl
    have hb : ([0x4f, 0x48, 0x44, 0x52] ++ leEnc 1 2 ++ leEnc 1 h.flags : Bytes) =
        ohdr ++ (leEnc 1 2 ++ (leEnc 1 h.flags ++ [])) := by
      simp [ohdr]
    rw [hb]
    have d1 : decide (h.flags < 64) = true := by simpa using b1
    simp only [P.bind_apply, hmg, read8_app _ _ _ (show 2 < 256 by omega), checkVal, BEq.rfl,
      P.assert_true, read8_app _ _ _ (show h.flags < 256 by omega), d1, P.pure_apply]
    rfl
  have rT : h.flags / 32 % 2 = 1 → seekRun file (addr + 6) 16 (skip 16) = .ok () := by
    intro hc
    cases htm : h.times with
    | none => simp [b5, htm] at hc
    | some t =>
      rw [htm] at aT
      have := seekRun_at (skip 16) aT (ht t htm) hlen (by omega)
      refine this.trans ?_
      simp only [Option.getD_some, skip, P.bind_apply]
      rw [rdN_all _ _ _ (ht t htm)]
      rfl
  have lT : (if h.flags / 32 % 2 = 1 then addr + 6 + 16 else addr + 6) =
      addr + 6 + (h.times.getD []).length := by
    cases htm : h.times with
    | none => simp [b5, htm]
    | some t => simp [b5, htm, ht t htm]
  have rP : h.flags / 16 % 2 = 1 →
      seekRun file (addr + 6 + (h.times.getD []).length) 4 (skip 4) = .ok () := by
    intro hc
    cases hpm : h.phase with
    | none => simp [b4, hpm] at hc
    | some t =>
      rw [hpm] at aP
      have := seekRun_at (skip 4) aP (hp t hpm) hlen (by omega)
      rw [← Nat.add_assoc] at this
      refine this.trans ?_
      simp only [Option.getD_some, skip, P.bind_apply]
      rw [rdN_all _ _ _ (hp t hpm)]
      rfl
  have lP : (if h.flags / 16 % 2 = 1 then addr + 6 + (h.times.getD []).length + 4
      else addr + 6 + (h.times.getD []).length) =
      addr + 6 + (h.times.getD []).length + (h.phase.getD []).length := by
    cases hpm : h.phase with
    | none => simp [b4, hpm]
    | some t => simp [b4, hpm, hp t hpm]
  have rN : seekRun file (addr + 6 + (h.times.getD []).length + (h.phase.getD []).length)
      ((2 ^ h.w : Nat) : Int) (readEnc (2 ^ h.w)) = .ok ((frames2 h.tracked ms).length + h.gap) := by
    have := seekRun_at (readEnc (2 ^ h.w)) aN (by simp) hlen (Nat.two_pow_pos h.w)
    rw [show addr + (6 + (h.times.getD []).length + (h.phase.getD []).length) =
      addr + 6 + (h.times.getD []).length + (h.phase.getD []).length by omega] at this
    rw [this]
    have := readEnc_ok h.w _ 0 hw hsize []
    rw [List.append_nil] at this
    rw [this]
    rfl
  have rF : ∀ st', AllAllowed (walk file fuel) 2 h.flags (ms.map (·.2.2)) st' →
      seekRun file (addr + 6 + (h.times.getD []).length + (h.phase.getD []).length + 2 ^ h.w)
      (i64 ((frames2 h.tracked ms).length + h.gap))
      (readCommon (walk file fuel) 2 h.flags ((frames2 h.tracked ms).length + h.gap) st') =
      runMessages (walk file fuel) 2 h.flags (ms.map (·.2.2)) st' := by
    intro st' hst'
    have aFG : At file (addr + 6 + (h.times.getD []).length + (h.phase.getD []).length + 2 ^ h.w)
        (frames2 h.tracked ms ++ List.replicate h.gap 0) := by
      have := hat
      unfold header2 at this
      have := this.app.1
      unfold header2Body at this
      rw [List.append_assoc _ (frames2 h.tracked ms)] at this
      have := this.app.2
      simp only [List.length_append, leEnc_length, num_eq, List.length_cons, List.length_nil] at this
      rw [show addr + 6 + (h.times.getD []).length + (h.phase.getD []).length + 2 ^ h.w = addr +
        (0 + 1 + 1 + 1 + 1 + 1 + 1 + (h.times.getD []).length + (h.phase.getD []).length + 2 ^ h.w) by omega]
      exact this
    have hl : (frames2 h.tracked ms ++ List.replicate h.gap 0).length =
        (frames2 h.tracked ms).length + h.gap := by simp
    have := seekRun_common (readCommon (walk file fuel) 2 h.flags
      ((frames2 h.tracked ms).length + h.gap) st') _ aFG (by rw [hl]; omega) hlen
      (readCommon_frames2 (walk file fuel) h.tracked h.flags h.gap b3 hg ms hm st' hst')
    rw [i64_of_lt (by omega), ← hl]
    rw [hl] at this ⊢
    exact this
  have rC : checkChecksum file addr (addr + 6 + (h.times.getD []).length + (h.phase.getD []).length +
      2 ^ h.w + ((frames2 h.tracked ms).length + h.gap) - addr) = .ok () := by
    obtain ⟨pre, post, hfile, hpre⟩ := hat.split hne
    subst hpre hfile
    unfold header2
    rw [hsn, num_eq]
    have := checkChecksum_block pre (header2Body h ms) post sum.toNat sum.toNat_lt (by
      have e : pre ++ header2 h ms ++ post =
          pre ++ header2Body h ms ++ leEnc 4 sum.toNat ++ post := by
        simp only [header2, hsn, num_eq, List.append_assoc]
      rw [← e]; exact hlen)
    rw [hs] at this
    simp only [↓reduceIte] at this
    rw [show pre ++ (header2Body h ms ++ leEnc 4 sum.toNat) ++ post =
      pre ++ header2Body h ms ++ leEnc 4 sum.toNat ++ post by simp only [List.append_assoc]]
    rw [← this]
    congr 1
    omega
  have hif : ∀ {c : Prop} [Decidable c] {x : Res Unit} {k : Res St}, (c → x = .ok ()) →
      (if c then x >>= fun _ => k else k) = k := by
    intro c _ x k hx
    split
    · rename_i hc
      rw [hx hc]
      rfl
    · rfl
  simp only [walk, hmag, readHeaderV2, rH, Res.bind_ok, lT, lP, b2, rN, Res.pure_eq]
  rw [hif rT, hif rP]
  rw [rF _ ha]
  cases runMessages (walk file fuel) 2 h.flags (ms.map (·.2.2))
      { st with info := { st.info with addr := addr }, kids := [] } with
  | err e => rfl
  | panic => rfl
  | ok st' => simp only [Res.bind_ok, rC]

/-! ### Version 1 -/

theorem frame1_length (f : Nat) (m : Message) :
    (frame1 f m).length = 8 + (m.bytes.length + (8 - m.bytes.length % 8) % 8) := by
  simp [frame1, num_eq]
  omega

theorem readHead_frame1 (f : Nat) (m : Message) (rest : Bytes) (p C : Nat)
    (hl : m.bytes.length < 65528) (hf : f < 256) (hd : m.bytes ≠ [])
    (hC : p + (frame1 f m).length ≤ C) :
    readHead 1 0 C ⟨p, frame1 f m ++ rest⟩ =
      .ok (.msg m.ty (m.bytes.length + (8 - m.bytes.length % 8) % 8),
        ⟨p + 8, m.bytes ++ (List.replicate ((8 - m.bytes.length % 8) % 8) 0 ++ rest)⟩) := by
  rw [frame1_length] at hC
  obtain ⟨pad, hpad⟩ : ∃ pad, pad = (8 - m.bytes.length % 8) % 8 := ⟨_, rfl⟩
  have hb : frame1 f m ++ rest = leEnc 2 m.ty ++ (leEnc 2 (m.bytes.length + pad) ++ (leEnc 1 f ++
      (List.replicate 3 0 ++ (m.bytes ++ (List.replicate pad 0 ++ rest))))) := by
    have h30 : leEnc 3 0 = List.replicate 3 0 := rfl
    simp only [frame1, num_eq, List.append_assoc, ← hpad, h30]
  rw [hb, ← hpad]
  rw [← hpad] at hC
  have hd0 : m.bytes.length ≠ 0 := by simpa using hd
  have hsz : ¬ (m.bytes.length + pad = 0) := by omega
  have h11 : (1 < 1) = False := by simp
  have e1 : ¬ (p + 2 + 2 = C) := by omega
  have h01 : ¬ (0 / 4 % 2 = 1) := by omega
  have e2 : (decide (1 ≠ 1) || decide (m.bytes.length + pad ≤
      (m.bytes ++ (List.replicate pad 0 ++ rest)).length)) = true := by
    simp only [List.length_append, List.length_replicate, Bool.or_eq_true, decide_eq_true_eq]
    omega
  have e3 : decide (m.bytes.length + pad ≤ C - (p + 2 + 2)) = true := by
    simp only [decide_eq_true_eq]; omega
  have hty : m.ty < 65536 := by have := Message.ty_lt m; omega
  have hln : m.bytes.length + pad < 65536 := by omega
  have hz : ∀ q r, checkZeroes 3 ⟨q, List.replicate 3 0 ++ r⟩ = .ok ((), ⟨q + 3, r⟩) :=
    fun q r => checkZeroes_ok 3 q r
  simp only [readHead, ↓reduceIte, P.bind_apply, read16_app _ _ _ hty, read16_app _ _ _ hln, hsz,
    false_and, count, e1, read8_app _ _ _ hf, hz, remLen_apply, h01, P.pure_apply, h11, e2, e3,
    P.assert_true]

theorem frames1_nil : frames1 [] = [] := rfl

theorem frames1_cons (x : Nat × Message) (ms : List (Nat × Message)) :
    frames1 (x :: ms) = frame1 x.1 x.2 ++ frames1 ms := rfl

theorem msgLoop_frames1 (w : Task → St → Res St) (C : Nat)
    (ms : List (Nat × Message)) (hm : Fits1 ms) (fuel p : Nat) (st : St)
    (ha : AllAllowed w 1 0 (ms.map (·.2)) st)
    (hC : p + (frames1 ms).length = C)
    (hfuel : (frames1 ms).length < fuel) :
    msgLoop w 1 0 C fuel st ⟨p, frames1 ms⟩ =
      match runMessages w 1 0 (ms.map (·.2)) st with
      | .ok st' => .ok (st', ⟨C, []⟩)
      | .err e => .err e
      | .panic => .panic := by
  induction ms generalizing fuel p st with
  | nil =>
    cases fuel with
    | zero => omega
    | succ fuel =>
      simp only [frames1_nil, List.length_nil, Nat.add_zero] at hC
      subst hC
      rfl
  | cons x ms ih =>
    obtain ⟨f, m⟩ := x
    obtain ⟨hf, hok, hl, htol⟩ := hm (f, m) (by simp)
    simp only at hf hok hl htol
    have hfl := frame1_length f m
    rw [frames1_cons, List.length_append, hfl] at hC hfuel
    simp only [List.map_cons, AllAllowed] at ha
    rw [frames1_cons]
    by_cases hd : m.bytes = []
    · have hrun := nil_run m w 1 0 st hok hd
      obtain ⟨fuel, rfl⟩ : ∃ n, fuel = n + 1 + 1 := ⟨fuel - 2, by omega⟩
      have hb : ∀ rest : Bytes, frame1 f m ++ rest =
          leEnc 2 m.ty ++ (leEnc 2 0 ++ (leEnc 2 f ++ (leEnc 2 0 ++ rest))) := by
        intro rest
        have h1 : leEnc 1 f ++ leEnc 3 0 = leEnc 2 f ++ leEnc 2 0 := by
          have : f / 256 = 0 := by omega
          simp [leEnc, this]
        simp only [frame1, num_eq, List.append_assoc, hd, List.length_nil, List.replicate_zero,
          Nat.zero_mod, Nat.sub_zero, Nat.mod_self, Nat.add_zero, List.nil_append]
        rw [← List.append_assoc (leEnc 1 f), h1, List.append_assoc]
      have hty : m.ty < 65536 := by have := Message.ty_lt m; omega
      have hf2 : f < 65536 := by omega
      have := ih (fun m h => hm m (by simp [h])) fuel (p + 2 + 2 + 2 + 2) st
        (ha.2 st hrun) (by rw [hd, List.length_nil] at hC; omega) (by omega)
      have l1 : ∀ (n : Nat) (r : Bytes), ¬ ((leEnc 2 n ++ (leEnc 2 0 ++ r)).length < 3) := by
        intro n r; simp only [List.length_append, leEnc_length]; omega
      simp only [hb, msgLoop, P.bind_apply, remLen_apply, l1, ↓reduceIte, readHead,
        read16_app _ _ _ hty, read16_app _ _ _ hf2, read16_app _ _ _ (show 0 < 65536 by omega), and_self,
        P.pure_apply, this, List.map_cons, runMessages, hrun, Res.bind_ok]
    · cases fuel with
      | zero => omega
      | succ fuel =>
      have h3 : ¬ ((frame1 f m ++ frames1 ms).length < 3) := by
        rw [List.length_append, hfl]; omega
      simp only [msgLoop, P.bind_apply, remLen_apply, h3, ↓reduceIte]
      rw [readHead_frame1 f m _ p C hl hf hd (by rw [hfl]; omega)]
      obtain ⟨t, ht, he⟩ := handle_fmt m st w 1 0 ((8 - m.bytes.length % 8) % 8) hok ha.1 (by
        rcases htol with h | h
        · left; omega
        · right; exact h)
      have hlen : (m.bytes ++ List.replicate ((8 - m.bytes.length % 8) % 8) 0).length =
        m.bytes.length + (8 - m.bytes.length % 8) % 8 := by simp
      rw [← List.append_assoc, ← hlen]
      rw [← hlen] at he
      simp only [msgSub, true_or, ↓reduceIte, List.take_left,
        List.drop_left, P.bind_apply, he, List.map_cons, runMessages]
      cases hr : m.run w 1 0 st with
      | err e => rfl
      | panic => rfl
      | ok st' =>
        have := ih (fun m h => hm m (by simp [h])) fuel
          (p + 8 + (m.bytes ++ List.replicate ((8 - m.bytes.length % 8) % 8) 0).length) st'
          (ha.2 st' hr) (by omega) (by omega)
        simp only [ht, ↓reduceIte, Res.bind_ok, this]

theorem readCommon_frames1 (w : Task → St → Res St)
    (ms : List (Nat × Message)) (hm : Fits1 ms) (st : St)
    (ha : AllAllowed w 1 0 (ms.map (·.2)) st) (p : Nat) (rest : Bytes) :
    readCommon w 1 0 (frames1 ms).length st
        ⟨p, (frames1 ms) ++ rest⟩ =
      match runMessages w 1 0 (ms.map (·.2)) st with
      | .ok st' => .ok (st', ⟨p + (frames1 ms).length, rest⟩)
      | .err e => .err e
      | .panic => .panic := by
  have := msgLoop_frames1 w _ ms hm
    ((frames1 ms).length + 1) 0 st ha (Nat.zero_add _) (by omega)
  unfold readCommon sub
  simp only [List.take_left, List.drop_left, P.bind_apply, remLen_apply, this]
  cases runMessages w 1 0 (ms.map (·.2)) st with
  | ok st' => simp only [List.nil_append]
  | err e => rfl
  | panic => rfl

/-- Reading a version 1 header, wherever it is in the file. -/
theorem walk_header1 (file : Bytes) (refs : Nat) (ms : List (Nat × Message)) (addr fuel : Nat)
    (st : St) (hm : Fits1 ms) (hn : ms.length < 65536) (hr : refs < 2 ^ 32)
    (ha : AllAllowed (walk file fuel) 1 0 (ms.map (·.2))
      { st with info := { st.info with addr := addr }, kids := [] })
    (hsize : (frames1 ms).length < 2 ^ 32)
    (hat : At file addr (header1 refs ms)) (hlen : file.length < 2 ^ 63) (haddr : 0 < addr) :
    walk file (fuel + 1) (.header addr) st =
      runMessages (walk file fuel) 1 0 (ms.map (·.2))
        { st with info := { st.info with addr := addr }, kids := [] } := by
  have hne : header1 refs ms ≠ [] := by
    intro e; have := congrArg List.length e; simp [header1, num_eq] at this
  have hle := hat.le hne
  have hl : (header1 refs ms).length = 16 + (frames1 ms).length := by
    simp [header1, num_eq, -List.length_flatMap]
    omega
  obtain ⟨aH, aF⟩ := At.app (show At file addr (_ ++ frames1 ms) from hat)
  simp only [num_eq] at aH aF
  have lH : (leEnc 1 1 ++ leEnc 1 0 ++ leEnc 2 ms.length ++ leEnc 4 refs ++
    leEnc 4 (frames1 ms).length ++ leEnc 4 0).length = 16 := by simp
  rw [lH] at aF
  have hmag : isMagic file ohdr addr = .ok false := by
    unfold isMagic
    rw [if_neg (by unfold invalidAddress; omega), if_neg (by omega)]
    congr 1
    obtain ⟨post, hpost⟩ := aH
    rw [← hpost]
    have : ∀ x : Bytes, ((leEnc 1 1 ++ x).take 4 == ohdr) = false := by
      intro x
      have : leEnc 1 1 ++ x = 1 :: x := rfl
      rw [this]
      simp [ohdr]
    simp only [List.append_assoc]
    exact this _
  have rH : seekRun file addr 16 (do
      let version ← read8
      P.assert (version == 0 || version == 1) .assertFail
      let z ← read8
      checkVal 0 z
      let _ ← read16
      let _ ← read32
      let headerSize ← read32
      checkZeroes 4
      pure (version, headerSize)) = .ok (1, (frames1 ms).length) := by
    have hz : checkZeroes 4 ⟨12, leEnc 4 0⟩ = .ok ((), ⟨16, []⟩) := by decide +kernel
    refine (seekRun_at _ aH lH hlen (by omega)).trans ?_
    simp only [List.append_assoc]
    simp only [P.bind_apply, read8_app _ _ _ (show 1 < 256 by omega),
      read8_app _ _ _ (show 0 < 256 by omega), BEq.rfl, Bool.or_true, P.assert_true, checkVal,
      read16_app _ _ _ hn, read32_app _ _ _ hr, read32_app _ _ _ hsize, Nat.zero_add, Nat.reduceAdd,
      hz, P.pure_apply, Res.map]
  have rF : ∀ st', AllAllowed (walk file fuel) 1 0 (ms.map (·.2)) st' →
      seekRun file (addr + 16) ((frames1 ms).length : Int)
      (readCommon (walk file fuel) 1 0 (frames1 ms).length st') =
      runMessages (walk file fuel) 1 0 (ms.map (·.2)) st' := fun st' hst' =>
    seekRun_common _ _ aF (by omega) hlen (readCommon_frames1 (walk file fuel) ms hm st' hst')
  simp only [walk, hmag, readHeaderV1, rH, Res.bind_ok]
  rw [rF _ ha]

/-! ### Continuation blocks -/

theorem newSeek_at {file b : Bytes} {a n : Nat} (h : At file a b) (hn : b.length = n)
    (hf : file.length < 2 ^ 63) (hs : 0 < n) : newSeek file a (i64 n) = .ok ⟨0, b⟩ := by
  obtain ⟨pre, post, rfl, rfl⟩ := h.split (by intro e; subst e; simp at hn; omega)
  subst hn
  have : pre.length + b.length ≤ (pre ++ b ++ post).length := by simp only [List.length_append]; omega
  rw [i64_of_lt (by omega), newSeek_block _ _ _ hf this hs]
  rw [List.append_assoc, List.drop_left, List.take_left]

/-- Reading a continuation block of a version 2 header. -/
theorem walk_cont2 (file : Bytes) (tracked : Bool) (flags gap : Nat) (ms : List (Nat × Nat × Message))
    (addr fuel : Nat) (st : St) (hfl : flags / 4 % 2 = if tracked then 1 else 0)
    (hg : gap < 4 + if tracked then 2 else 0) (hm : Fits2 ms)
    (ha : AllAllowed (walk file fuel) 2 flags (ms.map (·.2.2)) st)
    (hbody : (chunk2Body tracked ms gap).length < 2 ^ 32)
    (hat : At file addr (chunk2 tracked ms gap)) (hlen : file.length < 2 ^ 63) :
    walk file (fuel + 1) (.cont addr (chunk2 tracked ms gap).length 2 flags) st =
      runMessages (walk file fuel) 2 flags (ms.map (·.2.2)) st := by
  have hl2 : (chunk2 tracked ms gap).length = (chunk2Body tracked ms gap).length + 4 := by
    simp [chunk2, num_eq]
  have hlb : (chunk2Body tracked ms gap).length =
      4 + (frames2 tracked ms ++ List.replicate gap 0).length := by
    simp [chunk2Body]; omega
  have hne : chunk2 tracked ms gap ≠ [] := by
    intro e; have := congrArg List.length e; rw [hl2] at this; simp at this
  obtain ⟨sum, hs, hsum⟩ := checksum_lookup3 (chunk2Body tracked ms gap) hbody
  have hsn : (Lookup3.hash (chunk2Body tracked ms gap)).toNat = sum.toNat := by rw [← hsum]; rfl
  have hseek := newSeek_at hat rfl hlen (by omega)
  have hcs : (chunk2 tracked ms gap).length - 8 = (frames2 tracked ms).length + gap := by
    rw [hl2, hlb]; simp
  have hsz : ¬ ((chunk2 tracked ms gap).length = 0) := by omega
  have hmg : ∀ r : Bytes, checkMagic 4 ochk ⟨0, ochk ++ r⟩ = .ok ((), ⟨4, r⟩) := by
    intro r
    unfold checkMagic
    rw [P.bind_apply, rdN_append 4 0 ochk _ rfl]
    rfl
  have hb : chunk2 tracked ms gap = ochk ++ ((frames2 tracked ms ++ List.replicate gap 0) ++
      leEnc 4 sum.toNat) := by
    rw [chunk2, hsn]
    simp only [chunk2Body, num_eq, ochk, List.append_assoc]
  have rC : checkChecksum file addr ((chunk2 tracked ms gap).length - 4) = .ok () := by
    obtain ⟨pre, post, hfile, hpre⟩ := hat.split hne
    subst hpre hfile
    have e : pre ++ chunk2 tracked ms gap ++ post =
        pre ++ chunk2Body tracked ms gap ++ leEnc 4 sum.toNat ++ post := by
      simp only [chunk2, hsn, num_eq, List.append_assoc]
    have := checkChecksum_block pre (chunk2Body tracked ms gap) post sum.toNat sum.toNat_lt
      (e ▸ hlen)
    rw [hs] at this
    simp only [↓reduceIte] at this
    rw [e, ← this]
    congr 1
    omega
  have rB := readCommon_frames2 (walk file fuel) tracked flags gap hfl hg ms hm st ha 4
    (leEnc 4 sum.toNat)
  have hz : ∀ q r, checkZeroes 0 ⟨q, r⟩ = .ok ((), ⟨q, r⟩) := fun q r => by
    simpa using checkZeroes_ok 0 q r
  have h12 : (1 < 2) = True := by simp
  simp only [walk, readCont, hseek, h12, ↓reduceIte, hcs, hsz]
  rw [show ({ pos := 0, rem := chunk2 tracked ms gap } : S) = ⟨0, ochk ++ ((frames2 tracked ms ++
    List.replicate gap 0) ++ leEnc 4 sum.toNat)⟩ by rw [← hb]]
  simp only [P.bind_apply, hmg, rB]
  cases runMessages (walk file fuel) 2 flags (ms.map (·.2.2)) st with
  | err e => rfl
  | panic => rfl
  | ok st' =>
    have hmin : (chunk2 tracked ms gap).length - 4 -
        (4 + (frames2 tracked ms ++ List.replicate gap 0).length) = 0 := by omega
    simp only [count, remLen_apply, hmin, Nat.zero_min, hz, P.pure_apply, rC]
    rfl

/-- Reading a continuation block of a version 1 header. -/
theorem walk_cont1 (file : Bytes) (ms : List (Nat × Message))
    (addr fuel : Nat) (st : St) (hm : Fits1 ms) (hne : ms ≠ [])
    (ha : AllAllowed (walk file fuel) 1 0 (ms.map (·.2)) st)
    (hat : At file addr (frames1 ms)) (hlen : file.length < 2 ^ 63) :
    walk file (fuel + 1) (.cont addr (frames1 ms).length 1 0) st =
      runMessages (walk file fuel) 1 0 (ms.map (·.2)) st := by
  have hpos : 0 < (frames1 ms).length := by
    cases ms with
    | nil => exact absurd rfl hne
    | cons x ms => rw [frames1_cons, List.length_append, frame1_length]; omega
  have hseek := newSeek_at hat rfl hlen hpos
  have rB := readCommon_frames1 (walk file fuel) ms hm st ha 0 []
  rw [List.append_nil] at rB
  have h11 : (1 < 1) = False := by simp
  simp only [walk, readCont, hseek, h11, ↓reduceIte, P.bind_apply, rB]
  cases runMessages (walk file fuel) 1 0 (ms.map (·.2)) st <;> rfl

end Verif.H5
