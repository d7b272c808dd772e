import Verif.Spec.H5Vars
import Verif.Lemmas.H5TypedSlice
import Verif.Lemmas.H5ApiRead
import Verif.Spec.H5Others
/-!
Dimensions and attributes of variables in files of other programs.
-/
namespace Verif.H5

/-! ### Names by address -/

theorem addrIndex_of_mem {k : Obj} {ks : List Obj} (h : k ∈ ks) : ∀ p ∈ addrIndex k, p ∈ addrIndexL ks := by
  induction ks with
  | nil => cases h
  | cons x xs ih =>
    intro p hp
    rw [addrIndexL, List.mem_append]
    cases h with
    | head => exact .inl hp
    | tail _ h => exact .inr (ih h p hp)

theorem addrIndex_kids (o : Obj) : ∀ p ∈ addrIndexL o.kids, p ∈ addrIndex o := by
  cases o with
  | mk i ks =>
    intro p hp
    rw [addrIndex]
    exact List.mem_cons_of_mem _ hp

theorem Within.index {root k : Obj} (h : Within root k) : ∀ p ∈ addrIndex k, p ∈ addrIndexL root.kids := by
  induction h with
  | child k hk => exact addrIndex_of_mem hk
  | deeper m k _ hk ih => exact fun p hp => ih p (addrIndex_kids m p (addrIndex_of_mem hk p hp))

mutual
theorem index_addrs : ∀ o : Obj, (addrIndex o).map (·.1) = Fmt.addrsBelow o
  | .mk i ks => by rw [addrIndex, Fmt.addrsBelow, List.map_cons, index_addrsL ks]
theorem index_addrsL : ∀ os : List Obj, (addrIndexL os).map (·.1) = Fmt.allAddrs os
  | [] => rfl
  | o :: os => by rw [addrIndexL, Fmt.allAddrs, List.map_append, index_addrs o, index_addrsL os]
end

theorem lookup_append_left {α β : Type} [BEq α] [LawfulBEq α] {l : List (α × β)} {m : List (α × β)} {k : α} {b : β}
    (h : l.lookup k = some b) : (l ++ m).lookup k = some b := by
  induction l with
  | nil => simp at h
  | cons p l ih =>
    obtain ⟨x, y⟩ := p
    rw [List.cons_append, List.lookup_cons] at *
    split at h
    · exact h
    · exact ih h

theorem Within.nameAt {root k : Obj} (h : Within root k) (hn : (Fmt.allAddrs root.kids).Nodup) :
    nameAt (addrIndex root) k.info.addr = k.info.name := by
  have hm : (k.info.addr, k.info.name) ∈ addrIndexL root.kids := h.index _ (by
    cases k with
    | mk i ks => rw [addrIndex]; exact List.mem_cons_self)
  have hnd : ((addrIndexL root.kids).reverse.map (·.1)).Nodup := by
    rw [List.map_reverse, (List.reverse_perm _).nodup_iff, index_addrsL]
    exact hn
  have hl := lookup_nodup _ hnd (p := (k.info.addr, k.info.name)) (by simpa using hm)
  unfold H5.nameAt
  cases root with
  | mk i ks =>
    rw [addrIndex, List.reverse_cons]
    have := lookup_append_left (m := [(i.addr, i.name)]) hl
    simp only [Obj.kids] at this
    rw [this]
    rfl

/-! ### Attributes -/

/-- What is kept for an attribute with a value. -/
def kept (av : Attr → TVal) (a : Attr) : TVal := match a.data with | .none => .nil | _ => av a

theorem kept_data {av : Attr → TVal} {a : Attr} (h : a.data ≠ .none) : kept av a = av a := by
  unfold kept
  split
  · contradiction
  · rfl

theorem parseAttrsT_ok {cast : DT → Res Unit} {heap : HeapFn} {av : Attr → TVal} {i : Info} {pat : Bytes}
    (hf : attrFill i = .ok pat) (as : List Attr) (h : ∀ a ∈ as, AttrShown heap a (av a) ∧ Legible cast a.dt) :
    parseAttrsT cast heap i as = .ok (as.map fun a => (a, kept av a)) := by
  induction as with
  | nil => rfl
  | cons a as ih =>
    obtain ⟨h1, h2⟩ := h a List.mem_cons_self
    have := h1.parse h2 hf
    simp only [parseAttrsT, this, ih fun x hx => h x (List.mem_cons_of_mem _ hx)]
    rfl

theorem AttrsShown.parsed {cast : DT → Res Unit} {heap : HeapFn} {av : Attr → TVal} {i : Info}
    (h : AttrsShown cast heap av i) : parseAttrsT cast heap i i.attrs = .ok (i.attrs.map fun a => (a, kept av a)) := by
  obtain ⟨⟨pat, hf⟩, h⟩ := h
  exact parseAttrsT_ok hf _ h

theorem collectAttrsT_ok {cast : DT → Res Unit} {heap : HeapFn} {av : Attr → TVal} (as : List Attr) (m : GoMap TVal)
    (h : ∀ a ∈ as, AttrShown heap a (av a) ∧ Legible cast a.dt) (h1 : ∀ a ∈ as, ∀ n x, av a ≠ .compound [n] [x]) :
    collectAttrsT cast heap (as.map fun a => (a, kept av a)) m =
      .ok (((as.filter fun a => !hiddenAttrs.contains a.name).map fun a => (a.name, oneOut (av a))).foldl
        (fun m p => GoMap.set m p.1 p.2) m) := by
  induction as generalizing m with
  | nil => rfl
  | cons a as ih =>
    have ih := fun m => ih m (fun x hx => h x (List.mem_cons_of_mem _ hx)) fun x hx => h1 x (List.mem_cons_of_mem _ hx)
    obtain ⟨h2, h3⟩ := h a List.mem_cons_self
    have hs := h2.shown h3 (h1 a List.mem_cons_self)
    rw [List.map_cons, collectAttrsT]
    by_cases hc : hiddenAttrs.contains a.name = true
    · rw [if_pos hc, ih, List.filter_cons_of_neg (by rw [hc]; decide)]
    · rw [if_neg hc, show shownAttr cast heap a (kept av a) = .ok (oneOut (av a)) from hs]
      show collectAttrsT cast heap _ _ = _
      rw [ih, List.filter_cons_of_pos (by simpa using hc), List.map_cons, List.foldl_cons]

theorem getAttributesT_ok {cast : DT → Res Unit} {heap : HeapFn} {av : Attr → TVal} (as : List Attr)
    (h : ∀ a ∈ as, AttrShown heap a (av a) ∧ Legible cast a.dt) (h1 : ∀ a ∈ as, ∀ n x, av a ≠ .compound [n] [x])
    (hn : (as.map (·.name)).Nodup) :
    getAttributesT cast heap (as.map fun a => (a, kept av a)) =
      .ok ((as.filter fun a => !reservedAttrs.contains a.name).map fun a => (a.name, oneOut (av a))) := by
  have hsub : (((as.filter fun a => !hiddenAttrs.contains a.name).map fun a => (a.name, oneOut (av a))).map (·.1)).Nodup := by
    rw [List.map_map]
    exact (List.filter_sublist.map _).nodup hn
  unfold getAttributesT
  rw [collectAttrsT_ok as [] h h1, foldl_set _ [] (by simpa using hsub)]
  simp only [Res.map, List.nil_append]
  congr 1
  rw [List.filter_map, List.filter_filter]
  congr 1
  apply List.filter_congr
  intro a _
  simp only [Function.comp, reservedAttrs, hiddenAttrs, kDimid, kCoordinates, kDimList, kName, kRefList, kClass, ncpKey,
    List.map_cons, List.map_nil, List.contains_cons, List.contains_nil]
  cases hb : a.name == ascii "_NCProperties" with
  | false =>
    have : a.name ≠ ascii "_NCProperties" := by simpa using hb
    simp [this]
  | true =>
    have : a.name = ascii "_NCProperties" := by simpa using hb
    simp [this]

/-! ### Dimensions -/

theorem listedDimsT_none {idx : List (Nat × Bytes)} {av : Attr → TVal} (as : List Attr)
    (h : ∀ a ∈ as, a.name ≠ ascii "DIMENSION_LIST") : listedDimsT idx (as.map fun a => (a, kept av a)) = .ok [] := by
  induction as with
  | nil => rfl
  | cons a as ih =>
    rw [List.map_cons, listedDimsT, kDimList, if_neg (h a List.mem_cons_self), ih fun x hx => h x (List.mem_cons_of_mem _ hx)]

theorem listedDimsT_one {idx : List (Nat × Bytes)} {av : Attr → TVal} {pre post : List Attr} {a : Attr} {ns : List Bytes}
    (h : ∀ x ∈ pre ++ post, x.name ≠ ascii "DIMENSION_LIST") (ha : a.name = ascii "DIMENSION_LIST")
    (hv : dimListNamesT idx (kept av a) = .ok ns) :
    listedDimsT idx ((pre ++ a :: post).map fun a => (a, kept av a)) = .ok ns := by
  induction pre with
  | nil =>
    rw [List.nil_append, List.map_cons, listedDimsT, kDimList, if_pos ha, hv, listedDimsT_none post fun x hx => h x (by simpa using hx)]
    simp
  | cons x pre ih =>
    rw [List.cons_append, List.map_cons, listedDimsT, kDimList, if_neg (h x (by simp)),
      ih fun y hy => h y (by rw [List.cons_append]; exact List.mem_cons_of_mem _ hy)]

theorem dimListNamesT_ok {root : Obj} (hn : (Fmt.allAddrs root.kids).Nodup) (scales : List Obj)
    (h : ∀ k ∈ scales, Within root k ∧ k.info.name ≠ []) :
    dimListNamesT (addrIndex root)
      (.slice (.slice (.num .u64)) (scales.map fun k => .slice (.num .u64) [.num .u64 k.info.addr])) =
      .ok (scales.map fun k => k.info.name) := by
  show Res.ok _ = Res.ok _
  congr 1
  induction scales with
  | nil => rfl
  | cons k ks ih =>
    obtain ⟨h1, h2⟩ := h k List.mem_cons_self
    rw [List.map_cons, List.flatMap_cons, ih fun x hx => h x (List.mem_cons_of_mem _ hx)]
    simp only [rowNamesT, h1.nameAt hn, if_neg h2, List.map_cons, List.singleton_append]

theorem refListOK_of {v : TVal} (h : RefListShown v) : refListOK v = true := by
  obtain ⟨refs, h1, rfl⟩ := h
  rw [refListOK, List.all_map, List.all_eq_true]
  rintro ⟨ns, a, k, d⟩ hr
  rcases h1 _ hr with e | e <;> simp only at e <;> subst e <;> rfl

theorem parse_one {cast : DT → Res Unit} {heap : HeapFn} {i : Info} {ks : List Obj}
    (h : ∃ av, AttrsShown cast heap av i ∧
      ∀ a ∈ i.attrs, a.name = ascii "REFERENCE_LIST" → a.data ≠ .none ∧ RefListShown (av a))
    (hk : parseTreeTL cast heap ks = .ok ()) : parseTreeT cast heap (.mk i ks) = .ok () := by
  obtain ⟨av, h1, h2⟩ := h
  rw [parseTreeT]
  simp only [h1.parsed]
  rw [if_pos, hk]
  rw [List.all_map, List.all_eq_true]
  intro a ha
  simp only [Function.comp, Bool.or_eq_true, bne_iff_ne, ne_eq]
  by_cases hr : a.name = kRefList
  · obtain ⟨h3, h4⟩ := h2 a ha hr
    rw [kept_data h3]
    exact .inr (refListOK_of h4)
  · exact .inl hr

theorem Within.step {o m k : Obj} (h : Within m k) (hm : Within o m) : Within o k := by
  induction h with
  | child k hk => exact .deeper m k hm hk
  | deeper m' k _ hk ih => exact .deeper m' k ih hk

mutual
theorem treeShown_ok {cast : DT → Res Unit} {heap : HeapFn} : ∀ {o : Obj}, AllShown cast heap o → parseTreeT cast heap o = .ok ()
  | .mk i ks, h => parse_one (h _ (.inl rfl)) (treeShownL_ok fun k hk k' hk' => h k' (.inr (by
      rcases hk' with rfl | hk'
      · exact .child _ hk
      · exact hk'.step (.child _ hk))))
theorem treeShownL_ok {cast : DT → Res Unit} {heap : HeapFn} : ∀ {ks : List Obj}, (∀ k ∈ ks, AllShown cast heap k) →
    parseTreeTL cast heap ks = .ok ()
  | [], _ => rfl
  | k :: ks, h => by
    rw [parseTreeTL, treeShown_ok (h k List.mem_cons_self), treeShownL_ok fun x hx => h x (List.mem_cons_of_mem _ hx)]
end

theorem nameDimsT_cons (a : Attr) (v : TVal) (as : List (Attr × TVal)) : nameDimsT ((a, v) :: as) =
    if a.name = ascii "NAME" then
      match v with
      | .str s => if dimMarker.isPrefixOf s then nameDimsT as else .ok [s]
      | _ => .panic
    else nameDimsT as := by
  cases v <;> (simp only [nameDimsT, kName]; rfl)

theorem nameDimsT_none {av : Attr → TVal} (as : List Attr) (h : ∀ a ∈ as, a.name ≠ ascii "NAME") :
    nameDimsT (as.map fun a => (a, kept av a)) = .ok [] := by
  induction as with
  | nil => rfl
  | cons a as ih =>
    rw [List.map_cons, nameDimsT_cons, if_neg (h a List.mem_cons_self), ih fun x hx => h x (List.mem_cons_of_mem _ hx)]

theorem nameDimsT_one {av : Attr → TVal} {pre post : List Attr} {a : Attr} {n : Bytes} (h : ∀ x ∈ pre, x.name ≠ ascii "NAME")
    (ha : a.name = ascii "NAME") (hv : kept av a = .str n) (hn : (ascii "This is a netCDF dimension").isPrefixOf n = false) :
    nameDimsT ((pre ++ a :: post).map fun a => (a, kept av a)) = .ok [n] := by
  induction pre with
  | nil =>
    rw [List.nil_append, List.map_cons, nameDimsT_cons, if_pos ha, hv]
    simp only [dimMarker, hn, Bool.false_eq_true, ↓reduceIte]
  | cons x pre ih =>
    rw [List.cons_append, List.map_cons, nameDimsT_cons, if_neg (h x List.mem_cons_self),
      ih fun y hy => h y (List.mem_cons_of_mem _ hy)]

theorem DimsOf.dims {cast : DT → Res Unit} {heap : HeapFn} {root v : Obj} {av : Attr → TVal} {ns : List Bytes}
    (h : DimsOf cast heap root v av ns) (hn : (Fmt.allAddrs root.kids).Nodup) :
    getDimensionsT cast heap root (v.info.attrs.map fun a => (a, kept av a)) = .ok ns := by
  unfold getDimensionsT
  cases h with
  | listed pre post a scales h1 h2 h3 h4 h5 h6 h7 =>
    have := dimListNamesT_ok hn scales h6
    rw [← h7, ← kept_data (av := av) h4] at this
    rw [h1, listedDimsT_one h3 h2 this]
    cases scales with
    | nil => exact absurd rfl h5
    | cons k ks => rfl
  | coordinate pre post a n h1 h2 h3 h4 h5 h6 h7 h8 =>
    rw [listedDimsT_none _ h1]
    simp only [treeShown_ok h2]
    rw [h3]
    exact nameDimsT_one h4 h5 (by rw [kept_data (av := av) h6, h7]) h8
  | none h1 h2 =>
    rw [listedDimsT_none _ fun x hx => (h1 x hx).1]
    simp only [treeShown_ok h2]
    exact nameDimsT_none _ fun x hx => (h1 x hx).2

/-- Dimensions and attributes of a variable. -/
theorem varMetaT_ok {cast : DT → Res Unit} {s : Src} {root v : Obj} {av : Attr → TVal} {ns : List Bytes}
    (hd : DimsOf cast (heapLookup s.file) root v av ns) (ha : AttrsShown cast (heapLookup s.file) av v.info)
    (h1 : ∀ a ∈ v.info.attrs, ∀ n x, av a ≠ .compound [n] [x]) (hnames : (v.info.attrs.map (·.name)).Nodup)
    (hn : (Fmt.allAddrs root.kids).Nodup) :
    varMetaT cast s root v =
      .ok (ns, (v.info.attrs.filter fun a => !reservedAttrs.contains a.name).map fun a => (a.name, oneOut (av a))) := by
  unfold varMetaT
  simp only [ha.parsed, hd.dims hn, getAttributesT_ok _ ha.2 h1 hnames]

theorem IsVariable.found {G : Group} {n : Bytes} {v : Obj} (hv : G.obj.kids.find? (fun k => k.info.name == n) = some v)
    (h : IsVariable v) : G.findVariable n = some v := by
  obtain ⟨hd, hc⟩ := h
  have h1 : (classify v.info.attrs).isScale = false := by
    rcases hc with hc | ⟨a, ha, h1, m, h2, h3⟩
    · have : (classify v.info.attrs).hasClass = false := by
        simp only [classify, List.any_eq_false, beq_iff_eq]
        exact hc
      simp [ObjKind.isScale, this]
    · have : (classify v.info.attrs).hasName = true := by
        simp only [classify, List.any_eq_true]
        refine ⟨a, ha, ?_⟩
        rw [h1, h2]
        simp [kName, dimMarker, h3]
      simp [ObjKind.isScale, this]
  unfold Group.findVariable Obj.child
  rw [hv]
  simp only [h1]
  cases hd' : v.info.dims with
  | none => rw [hd'] at hd; cases hd
  | some d => simp

end Verif.H5
