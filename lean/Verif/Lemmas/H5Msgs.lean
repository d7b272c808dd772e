import Verif.Model.H5Api
import Verif.Lemmas.H5Stored
import Verif.Lemmas.H5VarEnc
import Verif.Lemmas.H5Checksum
/-!
The messages that the writer puts in headers, and what they do to an object.
-/
namespace Verif.H5

/-! ### Two lists, element by element -/

/-- The lists have the same length and the elements at the same position are related. -/
def All2 {α β : Type} (R : α → β → Prop) (xs : List α) (ys : List β) : Prop :=
  xs.length = ys.length ∧ ∀ p ∈ xs.zip ys, R p.1 p.2

theorem All2.nil {α β : Type} (R : α → β → Prop) : All2 R [] [] := ⟨rfl, by simp⟩

theorem All2.cons {α β : Type} {R : α → β → Prop} {x : α} {y : β} {xs : List α} {ys : List β}
    (h : R x y) (hs : All2 R xs ys) : All2 R (x :: xs) (y :: ys) := by
  refine ⟨by simp [hs.1], ?_⟩
  intro p hp
  simp only [List.zip_cons_cons, List.mem_cons] at hp
  rcases hp with rfl | hp
  · exact h
  · exact hs.2 p hp

theorem All2.of_cons {α β : Type} {R : α → β → Prop} {x : α} {y : β} {xs : List α} {ys : List β}
    (h : All2 R (x :: xs) (y :: ys)) : R x y ∧ All2 R xs ys :=
  ⟨h.2 (x, y) (by simp), by simpa using h.1, fun p hp => h.2 p (by simp [hp])⟩

theorem All2.append {α β : Type} {R : α → β → Prop} {xs xs' : List α} {ys ys' : List β}
    (h : All2 R xs ys) (h' : All2 R xs' ys') : All2 R (xs ++ xs') (ys ++ ys') := by
  refine ⟨by simp [h.1, h'.1], ?_⟩
  intro p hp
  rw [List.zip_append h.1, List.mem_append] at hp
  exact hp.elim (h.2 p) (h'.2 p)

theorem All2.mono {α β : Type} {R R' : α → β → Prop} {xs : List α} {ys : List β}
    (h : All2 R xs ys) (hr : ∀ x ∈ xs, ∀ y ∈ ys, R x y → R' x y) : All2 R' xs ys :=
  ⟨h.1, fun p hp => hr _ (List.of_mem_zip hp).1 _ (List.of_mem_zip hp).2 (h.2 p hp)⟩

theorem All2.map_eq {α β γ : Type} {R : α → β → Prop} {f : α → γ} {g : β → γ} {xs : List α}
    {ys : List β} (h : All2 R xs ys) (hr : ∀ x y, R x y → f x = g y) : xs.map f = ys.map g := by
  induction xs generalizing ys with
  | nil =>
    cases ys with
    | nil => rfl
    | cons y ys => exact absurd h.1 (by simp)
  | cons x xs ih =>
    cases ys with
    | nil => exact absurd h.1 (by simp)
    | cons y ys =>
      obtain ⟨h1, h2⟩ := h.of_cons
      simp [hr x y h1, ih h2]

theorem All2.left {α β : Type} {R : α → β → Prop} {xs : List α} {ys : List β} (h : All2 R xs ys)
    {x : α} (hx : x ∈ xs) : ∃ y ∈ ys, R x y := by
  induction xs generalizing ys with
  | nil => simp at hx
  | cons a xs ih =>
    cases ys with
    | nil => exact absurd h.1 (by simp)
    | cons y ys =>
      obtain ⟨h1, h2⟩ := h.of_cons
      rcases List.mem_cons.1 hx with rfl | hx
      · exact ⟨y, by simp, h1⟩
      · obtain ⟨z, hz, hr⟩ := ih h2 hx
        exact ⟨z, by simp [hz], hr⟩

theorem All2.right {α β : Type} {R : α → β → Prop} {xs : List α} {ys : List β} (h : All2 R xs ys)
    {y : β} (hy : y ∈ ys) : ∃ x ∈ xs, R x y := by
  induction xs generalizing ys with
  | nil =>
    cases ys with
    | nil => simp at hy
    | cons y ys => exact absurd h.1 (by simp)
  | cons a xs ih =>
    cases ys with
    | nil => exact absurd h.1 (by simp)
    | cons b ys =>
      obtain ⟨h1, h2⟩ := h.of_cons
      rcases List.mem_cons.1 hy with rfl | hy
      · exact ⟨a, by simp, h1⟩
      · obtain ⟨z, hz, hr⟩ := ih h2 hy
        exact ⟨z, by simp [hz], hr⟩

/-! ### Messages -/

theorem plain_of_handle {ty : Nat} {data : Bytes} {i j : Info} (m : Fmt.Message) (hty : m.ty = ty) (hb : m.bytes = data)
    (hok : m.OK) (hpl : m.Plain = true) (hal : m.Allowed i) (hj : m.effect i = j) (hd : data ≠ [])
    (p : Nat) (h : ∀ w kids addrs, handle w 2 2 ty data.length ⟨i, kids, addrs⟩ ⟨0, data⟩ =
      .ok (⟨j, kids, addrs⟩, ⟨p, []⟩)) : Plain [⟨ty, data⟩] i j := by
  refine ⟨?_, [m], by simp [asMsg, hty, hb], by simpa using hok, .cons hpl hal (hj ▸ .nil _)⟩
  intro w kids addrs
  simp only [applyMsgs, applyMsg, if_neg hd, h w kids addrs, List.all_nil, ↓reduceIte, Res.bind_ok]

theorem plain_dataspace (dims : List Nat) (i : Info) (hr : dims.length ≤ 255)
    (h : ∀ d ∈ dims, d < 2 ^ 64) :
    Plain [⟨1, buildDataspace dims⟩] i { i with isGroup := false, dims := some dims } := by
  refine plain_of_handle (.dataspace (.v1 dims none)) rfl (dataspace_form dims) ⟨hr, h, by simp⟩ rfl trivial rfl
    (by simp [buildDataspace]) (0 + (buildDataspace dims).length) (fun w kids addrs => ?_)
  have e := readDataspace_ok dims 0 [] hr h
  rw [List.append_nil] at e
  simp only [handle, Nat.one_ne_zero, false_or, Nat.reduceEqDiff, ↓reduceIte, P.bind_apply, e,
    Res.bind_ok, P.pure_apply]

theorem plain_datatype (t : WTy) (i : Info) (ht : t.Readable true) (hl : i.layout = []) :
    Plain [⟨3, t.bytes false⟩] i { i with isGroup := false, dt := some t.dt, layout := [] } := by
  have hne : t.bytes false ≠ [] := by
    intro h0
    have := parseDatatype_ok t 0 ht
    rw [h0] at this
    cases this
  refine plain_of_handle (.datatype t.form) rfl (form_bytes t true ht) (form_readable t true ht) rfl hl
    (by simp [Fmt.Message.effect, form_dt, ← hl]) hne (0 + (0 + (t.bytes false).length)) (fun w kids addrs => ?_)
  have e := parseDatatype_ok t 0 ht
  have e2 := sub_app (t.bytes false).length 0 _ (t.bytes false) [] parseDatatype t.dt rfl
    (by rw [e])
  rw [List.append_nil] at e2
  simp only [handle, Nat.reduceEqDiff, or_false, ↓reduceIte, P.bind_apply, remLen_apply, e2,
    Res.bind_ok, P.pure_apply]

theorem plain_layout (addr size : Nat) (i : Info) (ha : addr < 2 ^ 64 - 1) (hs : size < 2 ^ 64) :
    Plain [⟨8, buildLayout addr size⟩] i
      { i with isGroup := false, blocks := i.blocks ++ [.at addr size] } := by
  refine plain_of_handle (.contiguous 3 addr size) rfl (layout_form addr size) ⟨.inl rfl, by omega, hs⟩ rfl trivial
    (by simp only [Fmt.Message.effect]; rw [if_neg (by rw [Fmt.undefAddr]; omega)])
    (by simp [buildLayout]) (0 + (buildLayout addr size).length) (fun w kids addrs => ?_)
  have e := readLayout_ok addr size 0 [] ha hs
  rw [List.append_nil] at e
  simp only [handle, Nat.reduceEqDiff, or_false, ↓reduceIte, P.bind_apply, e, Res.bind_ok,
    P.pure_apply, setLayout]

theorem plain_linkInfo (i : Info) (h : i.link = none) :
    Plain [⟨2, buildLinkInfo⟩] i
      { i with isGroup := true, link := some (0xffffffffffffffff, 0xffffffffffffffff) } := by
  refine plain_of_handle (.linkInfo none none Fmt.undefAddr Fmt.undefAddr) rfl linkInfo_form
    ⟨by simp, by simp, by decide, by decide⟩ rfl h rfl
    (by simp [buildLinkInfo]) (0 + buildLinkInfo.length) (fun w kids addrs => ?_)
  have e := readLinkInfo_ok 0 []
  rw [List.append_nil] at e
  simp only [handle, Nat.reduceEqDiff, or_false, ↓reduceIte, P.bind_apply, h, Option.isNone_none,
    P.assert_true, e, Res.bind_ok, P.pure_apply]

theorem plain_groupInfo (i : Info) : Plain [⟨10, [0, 0]⟩] i { i with isGroup := true } := by
  refine plain_of_handle (.groupInfo none none) rfl groupInfo_form ⟨by simp, by simp⟩ rfl trivial rfl
    (by simp) (0 + 2) (fun w kids addrs => ?_)
  simp only [handle, Nat.reduceEqDiff, or_false, ↓reduceIte, P.bind_apply, readGroupInfo_ok,
    Res.bind_ok, P.pure_apply]

theorem buildAttr_ne (name dt ds data : Bytes) : buildAttr name dt ds data ≠ [] := by
  rw [buildAttr_eq]
  simp

theorem plain_attr (name data : Bytes) (t : WTy) (dims : List Nat) (d : AttrData) (hn : (0 : UInt8) ∉ name)
    (hnl : name.length < 65535) (ht : t.Readable true) (hs : (t.bytes false).length < 65536) (hr : dims.length ≤ 255)
    (hf : ∀ x ∈ dims, x < 2 ^ 64) (hd : attrData data t.dt = .ok d) (i : Info) :
    Plain [⟨12, buildAttr name (t.bytes false) (buildDataspace dims) data⟩] i
      { i with attrs := i.attrs ++ [⟨name, dims, t.dt, d⟩] } := by
  refine plain_of_handle (.attr 1 name t.form (.v1 dims none) data d) rfl
    (by simp only [Fmt.Message.bytes, Fmt.Space.bytes, form_bytes t true ht, dataspace_form, attr_form])
    ⟨.inl rfl, hn, hnl, form_readable t true ht, by rw [form_bytes t true ht]; exact hs, ⟨hr, hf, by simp⟩,
      by rw [form_dt]; exact hd⟩ rfl trivial (by simp only [Fmt.Message.effect, form_dt, Fmt.Space.dims])
    (buildAttr_ne _ _ _ _) (buildAttr name (t.bytes false) (buildDataspace dims) data).length (fun w kids addrs => ?_)
  have h := readAttribute_ok name data t dims hn hnl ht hs hr hf
  rw [hd] at h
  simp only [handle, Nat.reduceEqDiff, or_false, ↓reduceIte, P.bind_apply, h, Res.bind_ok,
    P.pure_apply]

/-! ### Attributes -/

/-- The attribute `a` of an object has the name `k` and the value `v`. -/
structure AttrHolds (heap : HeapFn) (a : Attr) (p : Bytes × GoVal) : Prop where
  name : a.name = p.1
  raw : Common p.2 → ∀ fill, attrRaw heap fill a = .ok p.2
  str : ∀ s, p.2 = .str s → a.data = .value s
  list : p.1 = kDimList → a.data ≠ .none
  shown : AttrShown heap a (GoVal.lift p.2)
  typed : ∃ t : WTy, a.dt = t.dt ∧ t.Readable true ∧ t.Whole

/-- The attribute can be written. -/
structure AttrReady (heap : HeapFn) (hp : Option Heap) (is : List Nat) (p : Bytes × GoVal) : Prop where
  noNul : (0 : UInt8) ∉ p.1
  room : p.1.length + valueRoom p.2 ≤ 65000
  key : p.1 ≠ kDimList
  enc : ∃ t dims data, AttrEnc heap hp is p.2 t dims data

theorem buildAttr_length (name dt ds data : Bytes) :
    (buildAttr name dt ds data).length ≤ name.length + dt.length + ds.length + data.length + 30 := by
  rw [buildAttr_eq]
  simp only [List.length_cons, List.length_append, leEnc_length, List.length_nil, pad8_length]
  omega

theorem buildDataspace_length (dims : List Nat) :
    (buildDataspace dims).length = 8 + 8 * dims.length := by
  simp only [buildDataspace, List.length_append, List.length_cons, List.length_nil,
    leEnc8_flatMap_length]

theorem AttrReady.msg {heap : HeapFn} {hp : Option Heap} {is : List Nat} {p : Bytes × GoVal}
    (h : AttrReady heap hp is p) :
    ∃ msg, attrMessage false hp is p.1 p.2 = .ok msg ∧ (⟨12, msg⟩ : Msg).Fits ∧
      ∃ a, AttrHolds heap a p ∧ ∀ i, Plain [⟨12, msg⟩] i { i with attrs := i.attrs ++ [a] } := by
  obtain ⟨t, dims, data, he⟩ := h.enc
  have hroom := he.room
  have hsmall := he.small
  have hr := h.room
  obtain ⟨d, h1, h2, h3, h4⟩ := he.read
  refine ⟨_, he.message p.1, ⟨(by decide : 12 < 256), ?_⟩, ⟨p.1, dims, t.dt, d⟩,
    ⟨rfl, fun hc fill => h2 hc fill p.1, h3, fun e => absurd e h.key, h4 p.1, t, rfl, he.readable, he.whole⟩,
    fun i => plain_attr p.1 data t dims d h.noNul (by omega) he.readable (by omega) he.fit.1 he.fit.2 h1 i⟩
  have := buildAttr_length p.1 (t.bytes false) (buildDataspace dims) data
  rw [buildDataspace_length] at this
  show (buildAttr _ _ _ _).length < 65536
  omega

/-- All attributes of an object. -/
theorem attrMsgs_ok (heap : HeapFn) (env : Env) (hbe : env.be = false) (path : List Bytes)
    (var : Option Bytes) (ps : List (Bytes × GoVal))
    (h : ∀ p ∈ ps, AttrReady heap env.heap ((env.attrVlens.lookup (path, var, p.1)).getD []) p) :
    ∃ ms, attrMsgs env path var ps = .ok ms ∧ (∀ m ∈ ms, m.Fits) ∧ ms.length = ps.length ∧
      ∃ as, All2 (AttrHolds heap) as ps ∧ ∀ i, Plain ms i { i with attrs := i.attrs ++ as } := by
  induction ps with
  | nil =>
    refine ⟨[], rfl, by simp, rfl, [], All2.nil _, fun i => ?_⟩
    rw [List.append_nil]
    exact Plain.nil i
  | cons p ps ih =>
    obtain ⟨k, v⟩ := p
    obtain ⟨msg, h1, h2, a, h3, h4⟩ := (h (k, v) (by simp)).msg
    obtain ⟨ms, g1, g2, g3, as, g4, g5⟩ := ih (fun p hp => h p (by simp [hp]))
    simp only at h1
    refine ⟨⟨12, msg⟩ :: ms, by simp only [attrMsgs, hbe, h1, g1], ?_, by simp [g3], a :: as,
      g4.cons h3, fun i => ?_⟩
    · intro m hm
      rcases List.mem_cons.1 hm with rfl | hm
      · exact h2
      · exact g2 m hm
    · have := (h4 i).cons (g5 _)
      simpa using this

end Verif.H5
