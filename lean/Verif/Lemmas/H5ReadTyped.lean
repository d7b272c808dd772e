import Verif.Lemmas.H5WrittenAs
import Verif.Lemmas.H5Vars
import Verif.Spec.H5ReadTyped
import Verif.Props.H5Typed
/-!
Reading what was written, with values of user-defined types.
-/
namespace Verif.H5

/-! ### The types -/

theorem readables_mem {last : Bool} : ∀ {ts : List WTy}, Readables last ts → ∀ t ∈ ts, ∃ l, t.Readable l
  | [], _, t, ht => by cases ht
  | [u], h, t, ht => by
    rw [List.mem_singleton.1 ht]
    exact ⟨_, by simpa only [Readables] using h⟩
  | u :: w :: us, h, t, ht => by
    simp only [Readables] at h
    rcases List.mem_cons.1 ht with rfl | ht
    · exact ⟨_, h.1⟩
    · exact readables_mem h.2 t ht

theorem named_none (sig : Bytes) : named (fun _ => .ok []) sig = .ok sig := by
  simp [named]

mutual
/-- Without named types the text of a type can be computed. -/
theorem typeText_wty (find : List Nat → Bytes → Res Bytes) (hfind : ∀ p s, find p s = .ok []) (owner : Bytes) :
    ∀ (t : WTy) (last : Bool), t.Readable last → ∀ place, ∃ s, typeText find .go owner place t.dt = .ok s ∧ s ≠ []
  | .num k, _, _, place => by
    cases k <;> exact ⟨_, by simp [WTy.dt, Kind.isFloat, Kind.size, Kind.signed, typeText, fixedText, floatText]; rfl, by decide⟩
  | .fixStr n, _, _, place => ⟨_, rfl, by decide⟩
  | .vlenStr, _, _, place => ⟨_, rfl, by decide⟩
  | .vlenSeq t, last, h, place => by
    obtain ⟨s, h1, h2⟩ := typeText_wty find hfind owner t last (by simpa [WTy.Readable] using h) (1 :: place)
    refine ⟨vlenText .go s, ?_, by simp [vlenText, ascii]⟩
    simp [WTy.dt, typeText, h1, nonEmpty, h2, named, hfind]
  | .opaque n, _, _, place => by
    refine ⟨opaqueText .go n, ?_, by simp [opaqueText, ascii]⟩
    simp [WTy.dt, typeText, named, hfind]
  | .compound names ts, last, h, place => by
    simp only [WTy.Readable] at h
    obtain ⟨ss, h1⟩ := typeTexts_wty find hfind owner ts (readables_mem h.2.2.2.2.2.2) place 1
    refine ⟨compoundText .go ((packed 0 names ts).map (·.1)) ss, ?_, by simp [compoundText, ascii]⟩
    simp [WTy.dt, typeText, h1, named, hfind]
  | .enum k names vals, _, h, place => by
    simp only [WTy.Readable] at h
    obtain ⟨s, h1, h2⟩ : ∃ s, fixedText .go k.size k.signed = .ok s ∧ s ≠ [] := by
      have := h.1
      cases k <;> first | exact ⟨_, rfl, by decide⟩ | exact absurd this (by decide)
    refine ⟨enumText .go owner s names (vals.map (valueOf k.size k.signed)), ?_, by simp [enumText, h2]⟩
    simp [WTy.dt, typeText, h1, nonEmpty, h2, named, hfind]
  | .ref, _, _, place => ⟨_, rfl, by decide⟩
theorem typeTexts_wty (find : List Nat → Bytes → Res Bytes) (hfind : ∀ p s, find p s = .ok []) (owner : Bytes) :
    ∀ (ts : List WTy), (∀ t ∈ ts, ∃ last, t.Readable last) → ∀ place i, ∃ ss, typeTexts find .go owner place i (dts ts) = .ok ss
  | [], _, place, i => ⟨[], rfl⟩
  | t :: ts, h, place, i => by
    obtain ⟨l, hl⟩ := h t (by simp)
    obtain ⟨s, h1, -⟩ := typeText_wty find hfind owner t l hl (i :: place)
    obtain ⟨ss, h2⟩ := typeTexts_wty find hfind owner ts (fun x hx => h x (by simp [hx])) place (i + 1)
    exact ⟨s :: ss, by simp [dts, typeTexts, h1, h2]⟩
end

theorem cast_wty {G : Group} (hG : G.types = []) {ord : List Nat → List NamedType → List NamedType} (hord : Iteration ord)
    (t : WTy) (last : Bool) (h : t.Readable last) : G.cast ord t.dt = .ok () := by
  have hfind : ∀ p s, findSig ord [] .go (ascii "junk") (([] : List NamedType).length + 1) [ascii "junk"] p s = .ok [] := by
    intro p s
    rw [List.length_nil, Nat.zero_add, findSig, (hord p []).eq_nil]
    rfl
  obtain ⟨s, h1, h2⟩ := typeText_wty _ hfind (ascii "junk") t last h []
  unfold Group.cast
  rw [hG]
  unfold describe
  rw [h1]
  show (if _ then _ else _) = _
  rw [if_neg h2]
  rfl

theorem steady_wty (t : WTy) (dims : List Nat) : Steady t.dt dims := by
  cases t with
  | num k => cases k <;> exact trivial
  | _ => exact trivial

theorem packed_pairwise : ∀ (off : Nat) (names : List Bytes) (ts : List WTy), Heapeds ts →
    (∀ x ∈ (packed off names ts).zip (dts ts), off ≤ x.1.2.1) ∧
    List.Pairwise (fun x y => x.1.2.1 + prod (x.1.2.2.getD []) * x.2.len ≤ y.1.2.1) ((packed off names ts).zip (dts ts))
  | off, [], ts, _ => by simp [packed]
  | off, n :: ns, [], _ => by simp [packed]
  | off, n :: ns, t :: ts, hh => by
    obtain ⟨h1, h2⟩ := packed_pairwise (off + t.fieldSize) ns ts hh.2
    simp only [packed, dts, List.zip_cons_cons, List.mem_cons, List.pairwise_cons]
    refine ⟨?_, ?_, h2⟩
    · rintro x (rfl | hx)
      · exact Nat.le_refl _
      · have := h1 x hx
        omega
    · intro x hx
      have := h1 x hx
      have hs : t.dt.len = t.fieldSize := by
        cases t with
        | num k => cases k <;> rfl
        | fixStr n => exact hh.1.elim
        | _ => simp [WTy.dt, DT.len, WTy.fieldSize]
      rw [← hs] at this
      simpa [prod] using this

mutual
/-- The types of the writer can be read. -/
theorem legible_heaped (cast : DT → Res Unit) (hc : ∀ (t : WTy) (last : Bool), t.Readable last → cast t.dt = .ok ()) :
    ∀ (t : WTy) (last : Bool), t.Readable last → t.Heaped → Legible cast t.dt
  | .num k, _, _, _ => by cases k <;> exact trivial
  | .fixStr n, _, _, _ => trivial
  | .vlenStr, _, _, _ => trivial
  | .vlenSeq t, last, h, hh =>
    ⟨hc (.vlenSeq t) last h, steady_wty t [], legible_heaped cast hc t last (by simpa [WTy.Readable] using h) hh⟩
  | .opaque n, last, h, _ => hc (.opaque n) last h
  | .compound names ts, last, h, hh => by
    have h0 := hc _ _ h
    simp only [WTy.Readable] at h
    refine ⟨h0, h.2.2.2.2.1, (packed_pairwise 0 names ts hh).2, ?_, legible_heapeds cast hc ts (readables_mem h.2.2.2.2.2.2) hh⟩
    intro x hx
    have : x.2 ∈ dts ts := (List.of_mem_zip hx).2
    obtain ⟨t, ht⟩ : ∃ t : WTy, x.2 = t.dt := by
      revert this
      generalize x.2 = d
      clear hx h h0 hh
      induction ts with
      | nil => intro h; cases h
      | cons t ts ih =>
        intro h
        rcases List.mem_cons.1 h with rfl | h
        · exact ⟨t, rfl⟩
        · exact ih h
    rw [ht]
    exact steady_wty t _
  | .enum k names vals, _, _, _ => trivial
  | .ref, _, _, _ => trivial
theorem legible_heapeds (cast : DT → Res Unit) (hc : ∀ (t : WTy) (last : Bool), t.Readable last → cast t.dt = .ok ()) :
    ∀ (ts : List WTy), (∀ t ∈ ts, ∃ last, t.Readable last) → Heapeds ts → Legible.LegibleAll cast (dts ts)
  | [], _, _ => trivial
  | t :: ts, h, hh => by
    obtain ⟨l, hl⟩ := h t (by simp)
    exact ⟨legible_heaped cast hc t l hl hh.1, legible_heapeds cast hc ts (fun x hx => h x (by simp [hx])) hh.2⟩
end

theorem legible_wty {cast : DT → Res Unit} (hc : ∀ (t : WTy) (last : Bool), t.Readable last → cast t.dt = .ok ())
    {t : WTy} {last : Bool} (h : t.Readable last) (hw : t.Whole) : Legible cast t.dt := by
  rcases hw with ⟨n, rfl⟩ | hw
  · trivial
  · exact legible_heaped cast hc t last h hw

/-! ### Attributes -/

/-- The value of an attribute. -/
def heldVal (full : List (Bytes × GoVal)) (a : Attr) : TVal :=
  ((full.find? fun p => p.1 == a.name).map fun p => GoVal.lift p.2).getD .nil

theorem heldVal_eq {heap : HeapFn} {full : List (Bytes × GoVal)} (hn : (full.map (·.1)).Nodup) {a : Attr} {p : Bytes × GoVal}
    (hp : p ∈ full) (h : AttrHolds heap a p) : heldVal full a = GoVal.lift p.2 := by
  rw [heldVal, h.name, find_nodup (·.1) full hn hp]
  rfl

theorem all2_map {α β γ : Type} {R : α → β → Prop} {f : α → γ} {g : β → γ} {xs : List α}
    {ys : List β} (h : All2 R xs ys) (hr : ∀ x, ∀ y ∈ ys, R x y → f x = g y) : xs.map f = ys.map g :=
  (h.mono (R' := fun x y => f x = g y) fun x _ y hy hxy => hr x y hy hxy).map_eq fun _ _ h => h

theorem held_legible {heap : HeapFn} {cast : DT → Res Unit}
    (hc : ∀ (t : WTy) (last : Bool), t.Readable last → cast t.dt = .ok ()) {a : Attr} {p : Bytes × GoVal}
    (h : AttrHolds heap a p) : Legible cast a.dt := by
  obtain ⟨t, h1, h2, h3⟩ := h.typed
  rw [h1]
  exact legible_wty hc h2 h3

theorem attrsShown_held {heap : HeapFn} {cast : DT → Res Unit}
    (hc : ∀ (t : WTy) (last : Bool), t.Readable last → cast t.dt = .ok ()) {i : Info} {full : List (Bytes × GoVal)}
    (h : All2 (AttrHolds heap) i.attrs full) (hn : (full.map (·.1)).Nodup) (hf : ∃ f, attrFill i = .ok f) :
    AttrsShown cast heap (heldVal full) i := by
  refine ⟨hf, fun a ha => ?_⟩
  obtain ⟨p, hp, hh⟩ := h.left ha
  rw [heldVal_eq hn hp hh]
  exact ⟨hh.shown, held_legible hc hh⟩

theorem lone_lift {v : GoVal} {n : Bytes} {x : TVal} (h : GoVal.lift v = .compound [n] [x]) : Lone v := by
  cases v with
  | user v => rw [lift_user] at h; exact ⟨n, x, by rw [h]⟩
  | _ => simp [GoVal.lift] at h

/-- The attributes that are shown are those that were given. -/
theorem shownAttrs_held {heap : HeapFn} {i : Info} {pre post : List (Bytes × GoVal)} {as : HAttrs}
    (h : All2 (AttrHolds heap) i.attrs (pre ++ as.getD [] ++ post)) (hn : ((pre ++ as.getD [] ++ post).map (·.1)).Nodup)
    (ha : AttrsAllowed as) (h1 : ∀ p ∈ pre, p.1 ∈ reservedAttrs) (h2 : ∀ p ∈ post, p.1 ∈ reservedAttrs) :
    ((i.attrs.filter fun a => !reservedAttrs.contains a.name).map fun a =>
      (a.name, oneOut (heldVal (pre ++ as.getD [] ++ post) a))) = shownT as := by
  generalize hfull : pre ++ as.getD [] ++ post = full at *
  have hmap := all2_map (f := fun a => (a.name, heldVal full a)) (g := fun p => (p.1, GoVal.lift p.2)) h
    fun a p hp hh => by rw [heldVal_eq hn hp hh, hh.name]
  have e1 : ((i.attrs.filter fun a => !reservedAttrs.contains a.name).map fun a => (a.name, oneOut (heldVal full a))) =
      ((i.attrs.map fun a => (a.name, heldVal full a)).filter fun q => !reservedAttrs.contains q.1).map
        fun q => (q.1, oneOut q.2) := by
    rw [List.filter_map, List.map_map]
    rfl
  have hkey : ∀ p ∈ as.getD [], p.1 ∉ reservedAttrs := by
    intro p hp hm
    have : ∀ k ∈ reservedAttrs, k ∈ reservedKeys := by decide
    exact (ha.each p hp).key (this _ hm)
  have e2 : (full.map fun p => (p.1, GoVal.lift p.2)).filter (fun q => !reservedAttrs.contains q.1) =
      (as.getD []).map fun p => (p.1, GoVal.lift p.2) := by
    rw [← hfull, List.filter_map, List.filter_append, List.filter_append]
    have f1 : pre.filter ((fun q : Bytes × TVal => !reservedAttrs.contains q.1) ∘ fun p => (p.1, GoVal.lift p.2)) = [] := by
      rw [List.filter_eq_nil_iff]
      intro p hp
      simpa using h1 p hp
    have f2 : post.filter ((fun q : Bytes × TVal => !reservedAttrs.contains q.1) ∘ fun p => (p.1, GoVal.lift p.2)) = [] := by
      rw [List.filter_eq_nil_iff]
      intro p hp
      simpa using h2 p hp
    have f3 : (as.getD []).filter ((fun q : Bytes × TVal => !reservedAttrs.contains q.1) ∘ fun p => (p.1, GoVal.lift p.2)) =
        as.getD [] := by
      rw [List.filter_eq_self]
      intro p hp
      simpa using hkey p hp
    rw [f1, f2, f3]
    simp
  rw [e1, hmap, e2, List.map_map]
  rfl

/-! ### All attributes of the file -/

/-- No attribute has the name `REFERENCE_LIST`. -/
inductive RefFree : HGroup → Prop
  | mk (i : GInfo) (subs : List HGroup) : kRefList ∉ (i.attrs.getD []).map (·.1) →
      (∀ v ∈ i.vars, kRefList ∉ (v.attrs.getD []).map (·.1)) → (∀ s ∈ subs, RefFree s) → RefFree (.mk i subs)

theorem RefFree.inv {g : HGroup} (h : RefFree g) : kRefList ∉ (g.info.attrs.getD []).map (·.1) ∧
    (∀ v ∈ g.info.vars, kRefList ∉ (v.attrs.getD []).map (·.1)) ∧ ∀ s ∈ g.subs, RefFree s := by
  cases h with
  | mk i subs h1 h2 h3 => exact ⟨h1, h2, h3⟩

theorem refFree_of {g : HGroup} (h1 : kRefList ∉ (g.info.attrs.getD []).map (·.1))
    (h2 : ∀ v ∈ g.info.vars, kRefList ∉ (v.attrs.getD []).map (·.1)) (h3 : ∀ s ∈ g.subs, RefFree s) : RefFree g := by
  cases g
  exact ⟨_, _, h1, h2, h3⟩

theorem refFree_sort {g : HGroup} (h : GroupAllowed g) : RefFree (sortG g) := by
  induction h with
  | mk i subs h1 h2 h3 h4 h5 h6 ih =>
    refine refFree_of ?_ ?_ ?_
    · rw [sortG_info]
      exact reflist_free h1
    · intro v hv
      rw [mem_sortG_vars] at hv
      exact reflist_free (h2 v hv).attrs
    · intro t ht
      obtain ⟨x, hx, rfl⟩ := (mem_sortG_subs _ _).1 ht
      exact ih x hx

variable {s : Src} {env : Env} {root root' : HGroup} {ds : List (Bytes × Nat)} {o : Obj}

theorem WCtx.refFree (c : WCtx s env root root' ds o) : RefFree (sortG root') := by
  obtain ⟨g1, g2, g3, g4, g5, g6⟩ := c.allowed.group.inv
  have hr := c.rootAs
  refine refFree_of ?_ ?_ ?_
  · obtain ⟨post, he, hp⟩ := hr.attrs
    rw [he, List.map_append, List.mem_append, not_or]
    refine ⟨reflist_free g1, ?_⟩
    intro hm
    obtain ⟨p, hpm, hk⟩ := List.mem_map.1 hm
    rw [hp p hpm] at hk
    exact absurd hk (by decide : ncpKey ≠ kRefList)
  · intro w hw
    rcases hr.back w hw with ⟨v, hv, hs⟩ | ⟨i, d, sz, rfl, _⟩
    · rcases hs with ⟨rfl, _, _⟩ | ⟨i, _, _, rfl, _⟩
      · exact reflist_free (g2 _ hv).attrs
      · simp only [promoted, Option.getD_some, List.map_append, List.mem_append, not_or]
        exact ⟨(by decide : kRefList ∉ [kClass, kName, kDimid]), reflist_free (g2 _ hv).attrs⟩
    · exact (by decide : kRefList ∉ [kClass, kName, kDimid])
  · intro t ht
    obtain ⟨x, hx, rfl⟩ := (mem_sortG_subs _ _).1 ht
    rw [c.madeOK.subs] at hx
    exact refFree_sort (g6 x hx)

/-- What the objects of a written file are. -/
theorem within_written {heap : HeapFn} {file : Bytes} {g : HGroup} (hg : GroupObj heap file env g o) (hr : RefFree g) {k : Obj}
    (hk : k = o ∨ Within o k) : (∃ w, VarAt heap file env k w ∧ kRefList ∉ (w.attrs.getD []).map (·.1)) ∨
      ∃ g', GroupObj heap file env g' k ∧ RefFree g' := by
  have step : ∀ g m k, GroupObj heap file env g m → RefFree g → k ∈ m.kids →
      (∃ w, VarAt heap file env k w ∧ kRefList ∉ (w.attrs.getD []).map (·.1)) ∨
        ∃ g', GroupObj heap file env g' k ∧ RefFree g' := by
    intro g m k hg hr hk
    obtain ⟨vs, ss, hm⟩ := hg.members
    rw [hm.kids, List.mem_append] at hk
    rcases hk with hk | hk
    · obtain ⟨w, hw, hva⟩ := hm.vars.left hk
      exact .inl ⟨w, hva, hr.inv.2.1 w hw⟩
    · obtain ⟨t, ht, -, hgt⟩ := hm.subs.left hk
      exact .inr ⟨t, hgt, hr.inv.2.2 t ht⟩
  rcases hk with rfl | hk
  · exact .inr ⟨g, hg, hr⟩
  · induction hk with
    | child k hk => exact step _ _ _ hg hr hk
    | deeper m k _ hk ih =>
      rcases ih with ⟨w, hva, -⟩ | ⟨g', h1, h2⟩
      · rw [hva.obj.kids] at hk
        cases hk
      · exact step _ _ _ h1 h2 hk

theorem someShown {heap : HeapFn} {cast : DT → Res Unit}
    (hc : ∀ (t : WTy) (last : Bool), t.Readable last → cast t.dt = .ok ()) {i : Info} {full : List (Bytes × GoVal)}
    (h : All2 (AttrHolds heap) i.attrs full) (hf : ∃ f, attrFill i = .ok f) (hr : kRefList ∉ full.map (·.1)) :
    ∃ av, AttrsShown cast heap av i ∧
      ∀ a ∈ i.attrs, a.name = ascii "REFERENCE_LIST" → a.data ≠ .none ∧ RefListShown (av a) := by
  classical
  refine ⟨fun a => if h : ∃ v, AttrShown heap a v then h.choose else .nil, ⟨hf, fun a ha => ?_⟩, fun a ha hn => ?_⟩
  · obtain ⟨p, hp, hh⟩ := h.left ha
    have hex : ∃ v, AttrShown heap a v := ⟨_, hh.shown⟩
    simp only [dif_pos hex]
    exact ⟨hex.choose_spec, held_legible hc hh⟩
  · obtain ⟨p, hp, hh⟩ := h.left ha
    rw [hh.name] at hn
    exact absurd (List.mem_map.2 ⟨p, hp, hn⟩) hr

theorem WCtx.allShown (c : WCtx s env root root' ds o) {cast : DT → Res Unit}
    (hc : ∀ (t : WTy) (last : Bool), t.Readable last → cast t.dt = .ok ()) : AllShown cast (heapLookup s.file) o := by
  intro k hk
  rcases within_written c.written.obj c.refFree hk with ⟨w, hva, hr⟩ | ⟨g', hg, hr⟩
  · refine someShown hc hva.obj.attrs hva.obj.fill ?_
    rw [fullAttrs, List.map_append, List.mem_append, not_or]
    refine ⟨hr, fun hm => ?_⟩
    obtain ⟨p, hp, he⟩ := List.mem_map.1 hm
    rw [dimListPair_keys env w p hp] at he
    exact absurd he (by decide)
  · obtain ⟨vs, ss, hm⟩ := hg.members
    exact someShown hc hm.info.attrs hm.info.fill hr.inv.1

/-! ### Dimensions -/

theorem WCtx.listed (c : WCtx s env root root' ds o) {w : HVar} (hsc : w.isScale = false) (hne : w.dims ≠ [])
    (hem : [] ∉ w.dims) (hd : ∀ d ∈ w.dims, d ∈ dimsOf root) :
    dimListPair env w = [(kDimList, dimRefs env.dimAddrs w.dims)] ∧
    ∃ ks : List Obj, ks.map (fun k => k.info.name) = w.dims ∧ (∀ k ∈ ks, k ∈ o.kids) ∧
      GoVal.lift (dimRefs env.dimAddrs w.dims) =
        .slice (.slice (.num .u64)) (ks.map fun k => .slice (.num .u64) [.num .u64 k.info.addr]) := by
  constructor
  · unfold dimListPair
    cases hh : env.heap with
    | none => exact absurd hh c.written.heap
    | some H =>
      simp only
      rw [if_pos]
      refine ⟨by simp [hsc], hne, ?_⟩
      rw [List.all_eq_true]
      intro d hdm
      have hne : d ≠ [] := fun e => hem (e ▸ hdm)
      obtain ⟨k, _, _, hget, _⟩ := c.scaleAt (hd d hdm) hne
      simp [hne, hget]
  · refine scale_list (P := fun k => k ∈ o.kids) w.dims fun d hdm => ?_
    obtain ⟨k, h1, h2, h3, h4⟩ := c.scaleAt (hd d hdm) (fun e => hem (e ▸ hdm))
    exact ⟨k, h1, h2, by rw [h3, Option.getD_some, Nat.mod_eq_of_lt (by omega)]⟩

theorem WCtx.dimsT (c : WCtx s env root root' ds o) {cast : DT → Res Unit}
    (hc : ∀ (t : WTy) (last : Bool), t.Readable last → cast t.dt = .ok ()) {path : List Bytes} {v w : HVar} {k : Obj}
    (hs : Stands root path v w) (hv : VarAllowed v) (hd : ∀ d ∈ v.dims, d ∈ dimsOf root)
    (hk : VarAt (heapLookup s.file) s.file env k w) (hn : ((fullAttrs env w).map (·.1)).Nodup) :
    DimsOf cast (heapLookup s.file) o k (heldVal (fullAttrs env w)) (dimsRead root path v) := by
  have ha := hk.obj.attrs
  have hnames : k.info.attrs.map (·.name) = (fullAttrs env w).map (·.1) := ha.map_eq fun _ _ h => h.name
  have hmem : ∀ x ∈ k.info.attrs, x.name ∈ (fullAttrs env w).map (·.1) := fun x hx => hnames ▸ List.mem_map_of_mem hx
  rcases hs with ⟨rfl, hsc, hp⟩ | ⟨i, hp, hdim, rfl, hc'⟩
  · have hno : ¬ (path = [] ∧ w.name ∈ dimsOf root) := fun e => hp e.1 e.2
    rw [dimsRead, if_neg hno]
    by_cases hcase : w.dims ≠ [] ∧ [] ∉ w.dims
    · rw [if_neg hcase.2]
      obtain ⟨hpair, ks, g1, g2, g3⟩ := c.listed (by simpa using hsc) hcase.1 hcase.2 hd
      have hpm : (kDimList, dimRefs env.dimAddrs w.dims) ∈ fullAttrs env w := by simp [fullAttrs, hpair]
      obtain ⟨a, ham, hh⟩ := ha.right hpm
      obtain ⟨pre, post, hsplit⟩ := List.append_of_mem ham
      rw [← g1]
      refine .listed pre post a ks hsplit hh.name ?_ (hh.list rfl) ?_ ?_ ?_
      · intro x hx e
        rw [← hnames, hsplit, List.map_append, List.map_cons] at hn
        have hnd := List.nodup_append.1 hn
        have hx' : x ∈ pre ∨ x ∈ post := List.mem_append.1 hx
        rcases hx' with hx' | hx'
        · exact hnd.2.2 _ (List.mem_map_of_mem hx') a.name (by simp) (e.trans hh.name.symm)
        · exact (List.nodup_cons.1 hnd.2.1).1 (List.mem_map.2 ⟨x, hx', e.trans hh.name.symm⟩)
      · rintro rfl
        exact hcase.1 g1.symm
      · intro x hx
        refine ⟨.child _ (g2 x hx), fun e => hcase.2 ?_⟩
        rw [← g1]
        exact List.mem_map.2 ⟨x, hx, e⟩
      · rw [heldVal_eq hn hpm hh, g3]
    · have hpair : dimListPair env w = [] := by
        unfold dimListPair
        split
        · rfl
        · rw [if_neg]
          rintro ⟨_, h1, h2⟩
          rw [List.all_eq_true] at h2
          refine hcase ⟨h1, fun hm => ?_⟩
          have := h2 _ hm
          simp at this
      have hres : (if [] ∈ w.dims then [] else w.dims) = [] := by
        split
        · rfl
        · rename_i hn
          by_cases hw : w.dims = []
          · exact hw
          · exact absurd ⟨hw, hn⟩ hcase
      rw [hres]
      refine .none (fun x hx => ?_) (c.allShown hc)
      have hx := hmem x hx
      rw [fullAttrs, hpair, List.append_nil] at hx
      obtain ⟨p, hpm, he⟩ := List.mem_map.1 hx
      have hkey := (hv.attrs.each p hpm).key
      rw [he] at hkey
      exact ⟨fun e => hkey (by rw [e]; decide), fun e => hkey (by rw [e]; decide)⟩
  · rw [dimsRead, if_pos ⟨hp, hdim⟩]
    have hfull : fullAttrs env (promoted i v) = scaleAttrs i v.name ++ v.attrs.getD [] := by
      rw [fullAttrs, dimListPair_scale rfl, List.append_nil]
      rfl
    have hpm : (kName, GoVal.str v.name) ∈ fullAttrs env (promoted i v) := by simp [hfull, scaleAttrs]
    obtain ⟨a, ham, hh⟩ := ha.right hpm
    obtain ⟨pre, post, hsplit⟩ := List.append_of_mem ham
    refine .coordinate pre post a v.name ?_ (c.allShown hc) hsplit ?_ hh.name ?_ ?_ ?_
    · intro x hx e
      have hx := hmem x hx
      rw [hfull, List.map_append, List.mem_append, e] at hx
      rcases hx with hx | hx
      · exact absurd hx (by decide : kDimList ∉ [kClass, kName, kDimid])
      · obtain ⟨p, hpm, he⟩ := List.mem_map.1 hx
        exact (hv.attrs.each p hpm).key (by rw [he]; decide)
    · intro x hx e
      rw [← hnames, hsplit, List.map_append, List.map_cons] at hn
      exact (List.nodup_append.1 hn).2.2 _ (List.mem_map_of_mem hx) a.name (by simp) (e.trans hh.name.symm)
    · rw [hh.str _ rfl]
      simp
    · rw [heldVal_eq hn hpm hh, lift_str]
    · have := hc'.name
      rw [← List.isPrefixOf_iff_prefix, Bool.not_eq_true] at this
      exact this

/-! ### Variables -/

theorem fullAttrs_nodup {path : List Bytes} {v w : HVar} (hs : Stands root path v w) (hv : VarAllowed v) :
    ((fullAttrs env w).map (·.1)).Nodup := by
  have hres : ∀ p ∈ v.attrs.getD [], p.1 ∉ reservedKeys := fun p hp => (hv.attrs.each p hp).key
  rcases hs with ⟨rfl, hsc, hp⟩ | ⟨i, hp, hdim, rfl, hc⟩
  · rw [fullAttrs, List.map_append, List.nodup_append]
    refine ⟨hv.attrs.keys, dimListPair_nodup _ _, ?_⟩
    intro a h1 b h2 e
    obtain ⟨p, hp, rfl⟩ := List.mem_map.1 h1
    obtain ⟨q, hq, rfl⟩ := List.mem_map.1 h2
    apply hres p hp
    rw [e, dimListPair_keys env w q hq]
    decide
  · rw [fullAttrs, dimListPair_scale rfl, List.append_nil]
    simp only [promoted, Option.getD_some, List.map_append]
    rw [List.nodup_append]
    refine ⟨(by decide : [kClass, kName, kDimid].Nodup), hv.attrs.keys, ?_⟩
    intro a h1 b h2 e
    obtain ⟨q, hq, rfl⟩ := List.mem_map.1 h2
    apply hres q hq
    rw [← e]
    have : ∀ a ∈ [kClass, kName, kDimid], a ∈ reservedKeys := by decide
    exact this a h1

/-- The attributes of a variable that are shown. -/
theorem stands_shown {heap : HeapFn} {path : List Bytes} {v w : HVar} (hs : Stands root path v w) (hv : VarAllowed v) {i : Info}
    (h : All2 (AttrHolds heap) i.attrs (fullAttrs env w)) :
    ((i.attrs.filter fun a => !reservedAttrs.contains a.name).map fun a =>
      (a.name, oneOut (heldVal (fullAttrs env w) a))) = shownT v.attrs := by
  have hn := fullAttrs_nodup (env := env) hs hv
  rcases hs with ⟨rfl, hsc, hp⟩ | ⟨i', hp, hdim, rfl, hc⟩
  · have he : fullAttrs env w = [] ++ w.attrs.getD [] ++ dimListPair env w := rfl
    rw [he] at h hn ⊢
    refine shownAttrs_held h hn hv.attrs (by simp) fun p hp => ?_
    rw [dimListPair_keys env w p hp]
    decide
  · have he : fullAttrs env (promoted i' v) = scaleAttrs i' v.name ++ v.attrs.getD [] ++ [] := by
      rw [fullAttrs, dimListPair_scale rfl]
      rfl
    rw [he] at h hn ⊢
    refine shownAttrs_held h hn hv.attrs (fun p hp => ?_) (by simp)
    have : ∀ a ∈ [kClass, kName, kDimid], a ∈ reservedAttrs := by decide
    exact this p.1 (List.mem_map_of_mem (f := (·.1)) hp)

theorem not_lone_scale (i : Nat) (n : Bytes) : ∀ p ∈ scaleAttrs i n, ¬ Lone p.2 := by
  rintro p hp ⟨n, x, e⟩
  simp only [scaleAttrs, List.mem_cons, List.not_mem_nil, or_false] at hp
  rcases hp with rfl | rfl | rfl <;> cases e

theorem Stands.lone {path : List Bytes} {v w : HVar} (hs : Stands root path v w)
    (h : ∀ p ∈ v.attrs.getD [], ¬ Lone p.2) : ∀ p ∈ fullAttrs env w, ¬ Lone p.2 := by
  intro p hp
  rw [fullAttrs, List.mem_append] at hp
  rcases hp with hp | hp
  · rcases hs with ⟨rfl, _, _⟩ | ⟨i, _, _, rfl, _⟩
    · exact h p hp
    · simp only [promoted, Option.getD_some, List.mem_append] at hp
      rcases hp with hp | hp
      · exact not_lone_scale i _ p hp
      · exact h p hp
  · rintro ⟨n, x, e⟩
    unfold dimListPair at hp
    split at hp
    · cases hp
    · split at hp
      · rw [List.mem_singleton.1 hp] at e
        cases e
      · cases hp

theorem held_lone {heap : HeapFn} {i : Info} {full : List (Bytes × GoVal)} (h : All2 (AttrHolds heap) i.attrs full)
    (hn : (full.map (·.1)).Nodup) (hl : ∀ p ∈ full, ¬ Lone p.2) :
    ∀ a ∈ i.attrs, ∀ n x, heldVal full a ≠ .compound [n] [x] := by
  intro a ha n x e
  obtain ⟨p, hp, hh⟩ := h.left ha
  rw [heldVal_eq hn hp hh] at e
  exact hl p hp (lone_lift e)

theorem WCtx.addrs (c : WCtx s env root root' ds o) : (Fmt.allAddrs o.kids).Nodup := by
  obtain ⟨_, _, _, _, _, _, _, _, _, _, _, _, _, _, _, ha, rfl⟩ := c.written.holds
  exact ha

theorem WCtx.varMetaT (c : WCtx s env root root' ds o) {cast : DT → Res Unit}
    (hc : ∀ (t : WTy) (last : Bool), t.Readable last → cast t.dt = .ok ()) {path : List Bytes} {v w : HVar} {k : Obj}
    (hs : Stands root path v w) (hv : VarAllowed v) (hl : ∀ p ∈ v.attrs.getD [], ¬ Lone p.2)
    (hd : ∀ d ∈ v.dims, d ∈ dimsOf root) (hk : VarAt (heapLookup s.file) s.file env k w) :
    H5.varMetaT cast s o k = .ok (dimsRead root path v, shownT v.attrs) := by
  have hn := fullAttrs_nodup (env := env) hs hv
  have hnames : k.info.attrs.map (·.name) = (fullAttrs env w).map (·.1) := hk.obj.attrs.map_eq fun _ _ h => h.name
  rw [varMetaT_ok (c.dimsT hc hs hv hd hk hn) (attrsShown_held hc hk.obj.attrs hn hk.obj.fill)
    (held_lone hk.obj.attrs hn (hs.lone hl)) (by rw [hnames]; exact hn) c.addrs, stands_shown hs hv hk.obj.attrs]

/-- The data of a variable. -/
theorem objDataT_ok (s : Src) {cast : DT → Res Unit}
    (hc : ∀ (t : WTy) (last : Bool), t.Readable last → cast t.dt = .ok ()) {w : HVar} {full : List (Bytes × GoVal)} {k : Obj}
    (hk : VarObj (heapLookup s.file) s.file w full k) :
    objDataT cast s k (TSt.fresh k) = .ok (GoVal.lift w.val, TSt.fresh k) ∧ GoVal.lift w.val ≠ .nil := by
  obtain ⟨dt, pat, data, h1, h2, h3, -, -, h4⟩ := hk.flat
  obtain ⟨t, t1, t2, t3⟩ := hk.typed
  obtain rfl : dt = t.dt := Option.some.inj (h1.symm.trans t1)
  have h5 := h4
  rw [← rowMajor_cellOf t.dt.len _ data h3] at h4
  obtain ⟨st, e1, -, e2⟩ := C55_flat_partial h2 h1 (by rw [hk.dims]; rfl) h4 (legible_wty hc t2 t3)
  rw [e2 (steady_wty t _)] at e1
  exact ⟨e1, h5.not_nil⟩

/-- The first axis is as long as the value. -/
theorem extentT_limited : ∀ (v : TVal) (n : Nat), 0 < extentT 0 v → ∃ ds, getDimsLimitedT v (n + 1) = extentT 0 v :: ds
  | .enum v _ _, n, h => by
    rw [extentT] at h ⊢
    rw [getDimsLimitedT]
    exact extentT_limited v n h
  | .slice t xs, n, h => by
    rw [extentT, getDimsLimitedT, if_neg (by omega)]
    exact ⟨_, rfl⟩
  | .num .., n, h => by simp [extentT] at h
  | .str .., n, h => by simp [extentT] at h
  | .opaque .., n, h => by simp [extentT] at h
  | .compound .., n, h => by simp [extentT] at h
  | .field .., n, h => by simp [extentT] at h
  | .nil, n, h => by simp [extentT] at h

theorem extent_limited : ∀ (v : GoVal) (n : Nat), 0 < extent 0 v → ∃ ds, getDimsLimited v (n + 1) = extent 0 v :: ds
  | .user v, n, h => by
    rw [extent] at h ⊢
    rw [getDimsLimited]
    exact extentT_limited v n h
  | .slice t xs, n, h => by
    rw [extent, getDimsLimited, if_neg (by omega)]
    exact ⟨_, rfl⟩
  | .num .., n, h => by simp [extent] at h
  | .str .., n, h => by simp [extent] at h
  | .other .., n, h => by simp [extent] at h

/-- Slices of a variable. -/
theorem objSlicesT_ok (s : Src) {cast : DT → Res Unit}
    (hc : ∀ (t : WTy) (last : Bool), t.Readable last → cast t.dt = .ok ()) {w : HVar} {full : List (Bytes × GoVal)} {k : Obj}
    (hk : VarObj (heapLookup s.file) s.file w full k) (hw : w.dims ≠ []) {tab : TTab} (htab : tab.of k = TSt.fresh k)
    (calls : List (Nat × Nat)) (hcalls : ∀ c ∈ calls, c.1 < c.2 ∧ c.2 ≤ extent 0 w.val) (b e : Nat) (hb : b < e)
    (he : e ≤ extent 0 w.val) :
    (k.getSliceT cast s (calls.foldl (fun t c => (k.getSliceT cast s t c.1 c.2).1) tab) b e).2 =
      .ok (sliceV b e (GoVal.lift w.val)) := by
  obtain ⟨dt, pat, data, h1, h2, h3, -, -, h4⟩ := hk.flat
  obtain ⟨t, t1, t2, t3⟩ := hk.typed
  obtain rfl : dt = t.dt := Option.some.inj (h1.symm.trans t1)
  rw [← rowMajor_cellOf t.dt.len _ data h3] at h4
  obtain ⟨n, hn⟩ : ∃ n, w.dims.length = n + 1 := ⟨w.dims.length - 1, by have := List.length_pos_iff.2 hw; omega⟩
  obtain ⟨ds, hds⟩ := extent_limited w.val n (by omega)
  have hdims := hk.dims
  rw [hn, hds] at hdims
  refine C55_slices_partial h2 h1 hdims (by rw [hn, hds]) h4 (legible_wty hc t2 t3) (fun x => steady_wty t _) calls
    (fun c h => ⟨Nat.le_of_lt (hcalls c h).1, (hcalls c h).2, fun _ => (hcalls c h).1⟩) tab ?_ b e (Nat.le_of_lt hb) he fun _ => hb
  rw [Untouched, htab]
  exact ⟨rfl, rfl⟩

/-! ### The calls -/

/-- No object has been sliced or has lost its type or its blocks. -/
def FreshT (o : Obj) (t : TTab) : Prop := ∀ k ∈ allObjs o, t.of k = TSt.fresh k

theorem freshT_put (hnd : (o.info.addr :: addrsBelow o).Nodup) {t : TTab} (hf : FreshT o t) {k : Obj}
    (hk : k ∈ allObjs o) : FreshT o (t.put k (TSt.fresh k)) := by
  intro x hx
  rw [TTab.of, TTab.put, List.lookup_cons]
  by_cases he : x.info.addr = k.info.addr
  · have : x = k := addr_inj (·.info.addr) (allObjs o) (by rw [allObjs_addr]; exact hnd) hx hk he
    simp [this]
  · have : (x.info.addr == k.info.addr) = false := by simpa using he
    rw [this]
    exact hf x hx

/-- A written group has no named types. -/
theorem types_none {heap : HeapFn} {file : Bytes} {g' : HGroup} {G : Group} (hg : GroupObj heap file env g' G.obj) :
    G.types = [] := by
  obtain ⟨vs, ss, hm⟩ := hg.members
  rw [Group.types, List.map_eq_nil_iff, List.filter_eq_nil_iff]
  intro k hk
  rw [hm.kids, List.mem_append] at hk
  rcases hk with hk | hk
  · obtain ⟨w, hw, hva⟩ := hm.vars.left hk
    simp [isType, hva.obj.dims]
  · obtain ⟨t, ht, -, hgt⟩ := hm.subs.left hk
    obtain ⟨_, _, hmt⟩ := hgt.members
    simp [isType, hmt.info.grp]

/-- Reading a variable. -/
theorem WCtx.getVariableT (c : WCtx s env root root' ds o) {names : List Bytes} {g g' : HGroup} {G : Group}
    {tord : List Nat → List NamedType → List NamedType} (htord : Iteration tord)
    (hat : root.at? names = some g) (hroot : G.root = o) (hfo : follow o names = some G.obj)
    (hg : GroupObj (heapLookup s.file) s.file env g' G.obj) (ht : Tidy g') (ha : GroupAs root names g g')
    {t : TTab} (hf : FreshT o t) :
    (∀ v ∈ g.info.vars, ∃ k ∈ allObjs o, (G.getVariableT (G.cast tord) s t v.name).1 = t.put k (TSt.fresh k) ∧
      ((∀ p ∈ v.attrs.getD [], ¬ Lone p.2) → (G.getVariableT (G.cast tord) s t v.name).2 =
        .ok ⟨GoVal.lift v.val, dimsRead root names v, shownT v.attrs⟩) ∧
      (v.dims ≠ [] → G.findVariable v.name = some k ∧
        ∀ calls : List (Nat × Nat), (∀ c ∈ calls, c.1 < c.2 ∧ c.2 ≤ extent 0 v.val) → ∀ b e, b < e → e ≤ extent 0 v.val →
          (k.getSliceT (G.cast tord) s (calls.foldl (fun t c => (k.getSliceT (G.cast tord) s t c.1 c.2).1) t) b e).2 =
            .ok (sliceV b e (GoVal.lift v.val)))) ∧
    (∀ n, n ∉ g.info.vars.map (·.name) → G.getVariableT (G.cast tord) s t n = (t, .err .notFound)) := by
  have hal := c.allowed.group.at hat
  have hc := fun t last h => cast_wty (types_none hg) htord t last h
  obtain ⟨h1, h2⟩ := findVariable_ok hg ht ha hal
  constructor
  · intro v hv
    obtain ⟨k, w, hk, hw, hs, hva, hmem⟩ := h1 v hv
    have hko : k ∈ allObjs o := follow_mem names hfo (kid_mem_allObjs hmem (self_mem_allObjs k))
    obtain ⟨hd, hnn⟩ := objDataT_ok s hc hva.obj
    rw [hs.val] at hd hnn
    have hr : G.getVariableT (G.cast tord) s t v.name =
        (t.put k (TSt.fresh k), (H5.varMetaT (G.cast tord) s G.root k).map fun m => ⟨GoVal.lift v.val, m.1, m.2⟩) := by
      rw [Group.getVariableT, hk]
      simp only [hf k hko, hd]
    refine ⟨k, hko, by rw [hr], fun hl => ?_, fun hvd => ⟨hk, fun calls hcalls b e hb he => ?_⟩⟩
    · rw [hr, hroot, c.varMetaT hc hs (hal.inv.2.1 v hv) hl (c.varDims hat hv) hva]
      rfl
    · have := objSlicesT_ok s hc hva.obj (by rcases hs with ⟨rfl, _, _⟩ | ⟨i, _, _, rfl, _⟩ <;> exact hvd) (hf k hko) calls (by rw [hs.val]; exact hcalls) b e hb
        (by rw [hs.val]; exact he)
      rw [this, hs.val]
  · intro n hn
    rw [Group.getVariableT, h2 n hn]

theorem WCtx.freshOneT (c : WCtx s env root root' ds o) {tord : List Nat → List NamedType → List NamedType}
    (htord : Iteration tord) {t : TTab} (hf : FreshT o t) (r : Bytes × Bytes) : FreshT o (readOneT s o tord t r) := by
  unfold readOneT
  rcases getGroup_root o r.1 c.noEmpty.1 c.noEmpty.2 with ⟨names, hp, he⟩ | he
  · rw [he]
    have hgrp := c.group names
    cases hat : root.at? names with
    | none =>
      rw [hat] at hgrp
      simp only at hgrp
      simp only [lookup, hgrp]
      exact hf
    | some g =>
      rw [hat] at hgrp
      obtain ⟨o', g', h1, h2, h3, h4⟩ := hgrp
      simp only [lookup, h1]
      generalize hG : ({ root := (rootGroup o).root, obj := o', name := [47] ++ names.flatMap (fun x => x ++ [47]) } : Group) = G
      have hobj : G.obj = o' := by rw [← hG]
      have hroot : G.root = o := by rw [← hG]; rfl
      obtain ⟨k1, k2⟩ := c.getVariableT htord hat hroot (hobj ▸ h1) (hobj ▸ h2) h3 h4 hf
      by_cases hn : r.2 ∈ g.info.vars.map (·.name)
      · obtain ⟨v, hv, hvn⟩ := List.mem_map.1 hn
        obtain ⟨k, hk, hr, -⟩ := k1 v hv
        rw [hvn] at hr
        rw [hr]
        exact freshT_put c.written.nodup hf hk
      · rw [k2 _ hn]
        exact hf
  · rw [he]
    exact hf

theorem WCtx.freshAllT (c : WCtx s env root root' ds o) {tord : List Nat → List NamedType → List NamedType}
    (htord : Iteration tord) (rs : ReadCalls) : FreshT o (readAllT s o tord rs) := by
  have : ∀ t, FreshT o t → FreshT o (rs.foldl (readOneT s o tord) t) := by
    induction rs with
    | nil => exact fun t h => h
    | cons r rs ih => exact fun t h => ih _ (c.freshOneT htord h r)
  exact this [] fun _ _ => rfl

/-- Reading a written file. -/
theorem WCtx.readsT (c : WCtx s env root root' ds o) {tord : List Nat → List NamedType → List NamedType}
    (htord : Iteration tord) (names : List Bytes) (path : Bytes) (hp : PathOf names path)
    (habs : path.head? = some 47) (rs : ReadCalls) :
    match root.at? names with
    | none => (rootGroup o).getGroup path = .err .notFound
    | some g => ∃ G, (rootGroup o).getGroup path = .ok G ∧ GroupReadsT s tord root names g G (readAllT s o tord rs) := by
  have hC := C39_absolute (rootGroup o) path names hp habs
  have hgrp := c.group names
  cases hat : root.at? names with
  | none =>
    rw [hat] at hgrp
    simp only at hgrp
    rw [hC, lookup]
    simp only [rootGroup, hgrp]
  | some g =>
    rw [hat] at hgrp
    obtain ⟨o', g', h1, h2, h3, h4⟩ := hgrp
    refine ⟨{ root := o, obj := o', name := slash :: dirs names }, ?_, ?_⟩
    · rw [hC, lookup]
      simp only [rootGroup, h1]
      rfl
    generalize hG : ({ root := o, obj := o', name := slash :: dirs names } : Group) = G
    have hobj : G.obj = o' := by rw [← hG]
    have hroot : G.root = o := by rw [← hG]
    have hname : G.name = slash :: dirs names := by rw [← hG]
    have hal := c.allowed.group.at hat
    have hns : ∀ n ∈ names, slash ∉ n := fun n hn => (hp.names n hn).2
    have hty : G.types = [] := types_none (G := G) (hobj ▸ h2)
    have hc := fun t last h => cast_wty hty htord t last h
    obtain ⟨k1, k2⟩ := c.getVariableT htord hat hroot (hobj ▸ h1) (hobj ▸ h2) h3 h4 (c.freshAllT htord rs)
    obtain ⟨l1, l2⟩ := c.lists hat hroot hobj hname hns h1 h2 h3 h4
    obtain ⟨vs, ss, hm⟩ := h2.members
    refine ⟨l1, l2, by rw [Group.listTypes, hty]; rfl, ?_, ?_, ?_, ?_⟩
    · intro hl
      obtain ⟨post, he, hpost⟩ := h4.attrs
      obtain ⟨post', he', hlen⟩ := h4.few
      obtain rfl : post = post' := List.append_cancel_left (he.symm.trans he')
      have hat := hm.info.attrs
      have he : g'.info.attrs.getD [] = [] ++ g.info.attrs.getD [] ++ post := he
      rw [he] at hat
      have hn : ((([] : List (Bytes × GoVal)) ++ g.info.attrs.getD [] ++ post).map (fun p => p.1)).Nodup := by
        rw [List.nil_append, List.map_append, List.nodup_append]
        refine ⟨hal.inv.1.keys, ?_, ?_⟩
        · match post, hlen with
          | [], _ => simp
          | [x], _ => simp
        · intro a h1 b h2 e
          obtain ⟨p, hp, rfl⟩ := List.mem_map.1 h1
          obtain ⟨q, hq, rfl⟩ := List.mem_map.1 h2
          apply (hal.inv.1.each p hp).key
          rw [e, hpost q hq]
          decide
      have hlone : ∀ p ∈ [] ++ g.info.attrs.getD [] ++ post, ¬ Lone p.2 := by
        intro p hp
        rw [List.nil_append, List.mem_append] at hp
        rcases hp with hp | hp
        · exact hl p hp
        · rw [hpost p hp]
          rintro ⟨n, x, e⟩
          cases e
      have hsh := attrsShown_held (cast := G.cast tord) hc hat hn hm.info.fill
      have hnames : o'.info.attrs.map (·.name) = (([] : List (Bytes × GoVal)) ++ g.info.attrs.getD [] ++ post).map (fun p => p.1) := hat.map_eq fun _ _ h => h.name
      unfold Group.attributesT
      rw [hobj, hsh.parsed]
      simp only
      rw [getAttributesT_ok _ hsh.2 (held_lone hat hn hlone) (by rw [hnames]; exact hn),
        shownAttrs_held hat hn hal.inv.1 (by simp) fun p hp => by rw [hpost p hp]; decide]
      rfl
    · intro v hv hl
      obtain ⟨k, _, _, hr, _⟩ := k1 v hv
      exact hr hl
    · intro v hv hd
      obtain ⟨k, _, _, _, hr⟩ := k1 v hv
      exact ⟨k, hr hd⟩
    · intro n hn
      rw [k2 n hn]

end Verif.H5
