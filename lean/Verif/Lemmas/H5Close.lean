import Verif.Lemmas.H5WriteGroup
import Verif.Lemmas.H5Holds
import Verif.Lemmas.H5HeapForm
/-!
The file as a whole: the dimension scales, the heap, the root group and the superblock.
-/
namespace Verif.H5

theorem insertBy_perm {α : Type} (key : α → Bytes) (x : α) (xs : List α) :
    (insertBy key x xs).Perm (x :: xs) := by
  induction xs with
  | nil => exact List.Perm.refl _
  | cons y ys ih =>
    unfold insertBy
    split
    · exact List.Perm.refl _
    · exact (ih.cons y).trans (List.Perm.swap _ _ _)

theorem sortBy_perm {α : Type} (key : α → Bytes) (xs : List α) : (sortBy key xs).Perm xs := by
  induction xs with
  | nil => exact List.Perm.refl _
  | cons x xs ih => exact (insertBy_perm key x _).trans (ih.cons x)

/-- A dimension scale that can be written without a heap. -/
structure ScaleReady (v : HVar) : Prop where
  val : VarPlain v.dims.length v.val
  attrs : ∀ p ∈ v.attrs.getD [], (0 : UInt8) ∉ p.1 ∧ p.1.length + valueRoom p.2 ≤ 65000 ∧ AttrPlain p.2
  few : (v.attrs.getD []).length < 59000
  keys : ∀ p ∈ v.attrs.getD [], p.1 ≠ kDimList

theorem ScaleReady.ready {v : HVar} (h : ScaleReady v) (heap : HeapFn) (da : GoMap Nat) :
    VarReady heap ⟨false, none, da, [], []⟩ [] v where
  enc := varEnc_plain heap none _ h.val
  attrs := fun p hp => ⟨(h.attrs p hp).1, (h.attrs p hp).2.1, h.keys p hp, attrEnc_plain heap none _ (h.attrs p hp).2.2⟩
  few := h.few
  refs := fun H hH => by cases hH

/-- Where the scales are. -/
structure ScalesAt (vs : List HVar) (buf buf' : Bytes) (da da' : GoMap Nat) : Prop where
  pre : buf <+: buf'
  other : ∀ n, (∀ v ∈ vs, v.isScale = true → v.name ≠ n) → da'.get n = da.get n
  at_ : ∀ v ∈ vs, v.isScale = true → ∃ a, da'.get v.name = some a ∧ buf.length ≤ a ∧ a < buf'.length ∧
    ∀ heap file, Grows buf' file → file.length < 2 ^ 63 →
      ∃ o, o.info.addr = a ∧ Stored file o ∧ VarObj heap file v (v.attrs.getD []) o
  nodup : ((vs.filter (·.isScale)).map fun v => (da'.get v.name).getD 0).Nodup

theorem writeScales_ok : ∀ (vs : List HVar) (buf : Bytes) (da : GoMap Nat),
    (∀ v ∈ vs, v.isScale = true → ScaleReady v) → (vs.map (·.name)).Nodup → 48 ≤ buf.length →
    ∃ buf' da', writeScales false vs (buf, da) = .ok (buf', da') ∧ ScalesAt vs buf buf' da da' := by
  intro vs
  induction vs with
  | nil =>
    intro buf da _ _ _
    exact ⟨buf, da, rfl, List.prefix_refl _, fun _ _ => rfl, by simp, by simp⟩
  | cons v vs ih =>
    intro buf da hr hn hb
    rw [List.map_cons, List.nodup_cons] at hn
    cases hs : v.isScale with
    | false =>
      obtain ⟨buf', da', h1, h2⟩ := ih buf da (fun w hw => hr w (by simp [hw])) hn.2 hb
      refine ⟨buf', da', ?_, h2.pre, ?_, ?_, ?_⟩
      · simp only [writeScales, hs, Bool.false_eq_true, ↓reduceIte, h1]
      · intro n hne
        exact h2.other n (fun w hw => hne w (by simp [hw]))
      · intro w hw hws
        rw [List.mem_cons] at hw
        rcases hw with rfl | hw
        · rw [hs] at hws; cases hws
        · exact h2.at_ w hw hws
      · rw [List.filter_cons_of_neg (by simp [hs])]
        exact h2.nodup
    | true =>
      have hv := hr v (by simp) hs
      obtain ⟨buf1, addr, w1, w2, w3, w4, -⟩ :=
        writeVar_ok (fun _ _ => .panic) _ rfl [] buf v (hv.ready _ da) hb
      have e1 := w2.length_le
      obtain ⟨buf', da', h1, h2⟩ := ih buf1 (da.set v.name addr) (fun w hw => hr w (by simp [hw])) hn.2
        (by omega)
      have e2 := h2.pre.length_le
      have hget : da'.get v.name = some addr := by
        rw [h2.other v.name ?_, GoMap.get_set]
        · simp
        · intro w hw _ he
          exact hn.1 (he ▸ List.mem_map_of_mem hw)
      refine ⟨buf', da', ?_, w2.trans h2.pre, ?_, ?_, ?_⟩
      · simp only [writeScales, hs, ↓reduceIte, w1, h1]
      · intro n hne
        rw [h2.other n (fun w hw => hne w (by simp [hw])), GoMap.get_set,
          if_neg (fun e => hne v (by simp) hs e.symm)]
      · intro w hw hws
        rw [List.mem_cons] at hw
        rcases hw with rfl | hw
        · refine ⟨addr, hget, w3, by omega, ?_⟩
          intro heap file hg hlen
          obtain ⟨b2, a2, x1, x2, x3, x4, x5⟩ := writeVar_ok heap _ rfl [] buf w (hv.ready _ da) hb
          rw [w1, Res.ok.injEq, Prod.mk.injEq] at x1
          obtain ⟨rfl, rfl⟩ := x1
          have := x5 file (hg.mono h2.pre (by omega)) hlen
          simpa [dimListPair] using this
        · obtain ⟨a, g1, g2, g3, g4⟩ := h2.at_ w hw hws
          exact ⟨a, g1, by omega, g3, g4⟩
      · rw [List.filter_cons_of_pos (by simp [hs]), List.map_cons, List.nodup_cons]
        refine ⟨?_, h2.nodup⟩
        rw [hget]
        intro hm
        obtain ⟨w, hw, he⟩ := List.mem_map.1 hm
        rw [List.mem_filter] at hw
        obtain ⟨a, g1, g2, -, -⟩ := h2.at_ w hw.1 hw.2
        rw [g1] at he
        simp only [Option.getD_some] at he
        omega

/-- Some reader finds the objects of any heap that is not too long. -/
theorem HeapHas.exists (H : Heap) (h : H.objects.length < 65536) : ∃ heap, HeapHas heap H := by
  refine ⟨fun _ i => match H.objects[i - 1]? with
    | some b => .ok (if b = [] then none else some b)
    | none => .err .internal, fun i b hb => ?_, h⟩
  simp only [hb.2]

theorem sortG_info (g : HGroup) :
    (sortG g).info = { g.info with vars := sortBy HVar.name g.info.vars } := by
  cases g
  rfl

/-- What `closeFile` needs from the group with its metadata. -/
structure CloseReady (ord : Order) (root : HGroup) : Prop where
  scales : ∀ v ∈ root.info.vars, v.isScale = true → ScaleReady v
  names : ((sortG root).info.vars.map (·.name) ++ (sortG root).subs.map (·.name)).Nodup
  short : ∀ n ∈ (sortG root).info.vars.map (·.name) ++ (sortG root).subs.map (·.name), n.length ≤ 255
  few : (root.info.attrs.getD []).length +
    ((sortG root).info.vars.length + (sortG root).subs.length) < 59000
  col : ∀ buf da, writeScales false (sortBy HVar.name root.info.vars) (superblockV2, []) = .ok (buf, da) →
    ∃ h t1 t2, collect false ord da root = .ok (h, t1, t2) ∧ h.objects.length < 65536 ∧
      ∀ a heap, HeapHas heap { h with addr := a } →
        ContentsReady heap ⟨false, some { h with addr := a }, da, t1, t2⟩ [] (sortG root) ∧
        ∀ p ∈ root.info.attrs.getD [],
          AttrReady heap (some { h with addr := a }) ((t2.lookup ([], none, p.1)).getD []) p

/-- What is in a file. -/
structure Written (file : Bytes) (env : Env) (root : HGroup) (o : Obj) : Prop where
  opens : OpensTo file o
  name : o.info.name = []
  obj : GroupObj (heapLookup file) file env (sortG root) o
  nodup : (o.info.addr :: addrsBelow o).Nodup
  heap : env.heap ≠ none
  scales : ∀ n a, env.dimAddrs.get n = some a → a < 2 ^ 63
  scale : ∀ v ∈ root.info.vars, v.isScale = true →
    ∃ k ∈ o.kids, k.info.name = v.name ∧ env.dimAddrs.get v.name = some k.info.addr
  only : ∀ n a, env.dimAddrs.get n = some a → ∃ v ∈ root.info.vars, v.isScale = true ∧ v.name = n
  holds : Fmt.FileHolds file o
  every : ∀ heap, HeapFinds file heap → GroupObj heap file env (sortG root) o

theorem closeFile_ok (ord : Order) (root root' : HGroup) (hm : addMetadata root = .ok root')
    (hr : CloseReady ord root') :
    ∃ file env, closeFile false ord root = .ok file ∧
      (file.length < 2 ^ 63 → ∃ o, Written file env root' o) := by
  have hsv : (sortG root').info.vars = sortBy HVar.name root'.info.vars := by rw [sortG_info]
  have hperm := sortBy_perm HVar.name root'.info.vars
  have hnv : ((sortBy HVar.name root'.info.vars).map (·.name)).Nodup := by
    rw [← hsv]
    exact (List.nodup_append.1 hr.names).1
  have hsl : superblockV2.length = 48 := by decide
  obtain ⟨buf, da, hws, hsc⟩ := writeScales_ok (sortBy HVar.name root'.info.vars) superblockV2 []
    (fun v hv => hr.scales v (hperm.mem_iff.1 hv)) hnv (by omega)
  obtain ⟨h, t1, t2, hcol, hfew, hready⟩ := hr.col buf da hws
  have hlb := hsc.pre.length_le
  -- the heap
  obtain ⟨b1, a, hplace, hpre1, hheapat⟩ : ∃ b1 a, placeHeap buf h = (b1, { h with addr := a }) ∧
      buf <+: b1 ∧ ∀ file, Grows b1 file → file.length < 2 ^ 63 →
        HeapHas (heapLookup file) { h with addr := a } ∧
          ∀ heap, HeapFinds file heap → HeapHas heap { h with addr := a } := by
    by_cases ho : h.objects = []
    · have hno : ∀ heap, HeapHas heap { h with addr := h.addr } := by
        intro heap
        refine ⟨?_, by simp [ho]⟩
        intro i b hb
        have := hb.2
        simp [ho] at this
      exact ⟨buf, h.addr, by rw [placeHeap, if_pos ho], List.prefix_refl _, fun file _ _ => ⟨hno _, fun heap _ => hno heap⟩⟩
    · refine ⟨(buf ++ pad8 buf.length) ++ heapBlock h.objects, (buf ++ pad8 buf.length).length, ?_, ?_, ?_⟩
      · simp only [placeHeap, if_neg ho, writeGlobalHeap_eq]
      · rw [List.append_assoc]
        exact List.prefix_append _ _
      · intro file hg hlen
        have hat : At file (buf ++ pad8 buf.length).length (heapBlock h.objects) :=
          Grows.at (post := []) (by rwa [List.append_nil]) (by rw [List.length_append]; omega)
        have hge := freeSize_ge h.objects
        have hfl := hg.length (by rw [List.length_append, List.length_append, heapBlock_length, collSize]; omega)
        rw [List.length_append] at hfl
        refine ⟨?_, fun heap hfi => hfi.has hat (by show (buf ++ pad8 buf.length).length < 2 ^ 64; omega) hfew⟩
        obtain ⟨post, hp⟩ := hat
        exact heapHas_block file { h with addr := (buf ++ pad8 buf.length).length } post hlen hp.symm hfew
  have hl1 := hpre1.length_le
  generalize hH : ({ h with addr := a } : Heap) = H at *
  have hHo : H.objects.length < 65536 := by rw [← hH]; exact hfew
  generalize henv : (⟨false, some H, da, t1, t2⟩ : Env) = env
  have hbe : env.be = false := by rw [← henv]
  have heh : env.heap = some H := by rw [← henv]
  have heda : env.dimAddrs = da := by rw [← henv]
  have heat : env.attrVlens = t2 := by rw [← henv]
  have hready' : ∀ heap, HeapHas heap H → ContentsReady heap env [] (sortG root') ∧
      ∀ p ∈ root'.info.attrs.getD [],
        AttrReady heap env.heap ((env.attrVlens.lookup ([], none, p.1)).getD []) p := by
    intro heap hh
    have := hready a heap (by rw [hH]; exact hh)
    rw [hH, henv] at this
    rw [heh, heat]
    exact this
  obtain ⟨heap0, hheap0⟩ := HeapHas.exists H hHo
  -- the members and the header
  have key : ∀ heap, HeapHas heap H → ∃ b2 ls hdr, writeContents env [] b1 (sortG root') = .ok (b2, ls) ∧
      groupHeader env [] root'.info.attrs ls = .ok hdr ∧ b1 <+: b2 ∧ 0 < hdr.length ∧
      ∀ file, Grows (b2 ++ hdr) file → file.length < 2 ^ 63 → ScalesIn heap file env (sortG root').info.vars →
        ∃ o, o.info.name = [] ∧ o.info.addr = b2.length ∧ Stored file o ∧
          GroupObj heap file env (sortG root') o ∧ (addrsBelow o).Nodup ∧
          (∀ x ∈ addrsBelow o, x < b2.length) := by
    intro heap hh
    obtain ⟨hc, ha⟩ := hready' heap hh
    obtain ⟨b2, ls, c1, c2, c3, c4⟩ := writeContents_ok heap env hbe [] (sortG root') b1 hc (by omega)
    have hl2 := c2.length_le
    have hlen : ls.length = (sortG root').info.vars.length + (sortG root').subs.length := by
      have := congrArg List.length c3
      simpa using this
    obtain ⟨hdr, d1, d2, d3⟩ := groupHeader_ok heap env hbe [] root'.info.attrs ls ha
      (by rw [hlen]; exact hr.few) (by rw [c3]; exact hr.names)
      (fun l hl => hr.short _ (by rw [← c3]; exact List.mem_map_of_mem hl))
    refine ⟨b2, ls, hdr, c1, d1, c2, d2, ?_⟩
    intro file hg hlen hscin
    have hfl := hg.length (by rw [List.length_append]; omega)
    rw [List.length_append] at hfl
    have hsa : scaleAddrs env (sortG root').info.vars =
        ((sortBy HVar.name root'.info.vars).filter (·.isScale)).map fun v => (da.get v.name).getD 0 := by
      rw [scaleAddrs, hsv, heda]
    have hsalt : ∀ x ∈ scaleAddrs env (sortG root').info.vars, x < buf.length := by
      rw [hsa]
      intro x hx
      obtain ⟨w, hw, rfl⟩ := List.mem_map.1 hx
      rw [List.mem_filter] at hw
      obtain ⟨y, g1, g2, g3, -⟩ := hsc.at_ w hw.1 hw.2
      rw [g1]
      exact g3
    obtain ⟨vs, ss, p1, p2, p3, p4, p5⟩ := c4 file (hg.mono (List.prefix_append _ _) (by omega)) hlen hscin
      (by rw [hsa]; exact hsc.nodup) (fun x hx => by have := hsalt x hx; omega)
    have hbd : ∀ x ∈ addrsBelowL (vs ++ ss), x < b2.length := by
      intro x hx
      rcases p5 x hx with h | h
      · have := hsalt x h
        omega
      · exact h.2
    have hmem : ∀ k ∈ vs ++ ss, k.info.addr ∈ addrsBelowL (vs ++ ss) := by
      generalize vs ++ ss = ks
      induction ks with
      | nil => simp
      | cons k ks ih =>
        intro x hx
        rw [List.mem_cons] at hx
        rcases hx with rfl | hx
        · simp [addrsBelowL]
        · simp [addrsBelowL, ih x hx]
    obtain ⟨oi, o1, o2, o3, o4⟩ := d3 file b2.length [] (vs ++ ss) p3
      (Grows.at (post := []) (by rwa [List.append_nil]) (by omega)) (by omega)
      (fun k hk => by have := hbd _ (hmem k hk); omega)
      (fun k hk => by
        rw [List.mem_append] at hk
        rcases hk with hk | hk
        · obtain ⟨y, -, hy⟩ := p1.left hk
          exact hy.1
        · obtain ⟨y, -, hy⟩ := p2.left hk
          exact hy.1)
    refine ⟨.mk oi (vs ++ ss), o1, o2, o4, ?_, p4, hbd⟩
    have hinfo : (sortG root').info.attrs = root'.info.attrs := by rw [sortG_info]
    have := GroupObj.mk (env := env) (sortG root').info (sortG root').subs oi vs ss (hinfo ▸ o3)
      (p1.mono (fun _ _ _ _ h => h.2)) p2.1 (fun p hp => (p2.2 p hp).2.1) (fun p hp => (p2.2 p hp).2.2)
    have hmk : HGroup.mk (sortG root').info (sortG root').subs = sortG root' := by
      cases sortG root'
      rfl
    rwa [hmk] at this
  obtain ⟨b2, ls, hdr, k1, k2, k3, k4, -⟩ := key heap0 hheap0
  have hl3 := k3.length_le
  obtain ⟨body, hbody⟩ : superblockV2 <+: b2 ++ hdr :=
    ((hsc.pre.trans hpre1).trans k3).trans (List.prefix_append _ _)
  obtain ⟨sum, f1, f2⟩ := finalize_eq body b2.length
  rw [hbody] at f2
  have hclose : closeFile false ord root =
      .ok (superHead (48 + body.length) b2.length ++ leEnc 4 sum.toNat ++ body) := by
    simp only [closeFile, hm, hws, hcol, hplace, henv, k1, k2]
    exact f2
  refine ⟨_, env, hclose, ?_⟩
  intro hlen
  generalize hfile : superHead (48 + body.length) b2.length ++ leEnc 4 sum.toNat ++ body = file at hlen ⊢
  have hg : Grows (b2 ++ hdr) file := by
    refine ⟨by rw [List.length_append]; omega, ?_⟩
    rw [← hbody, ← hfile, List.drop_left' hsl, List.drop_left' (by
      rw [List.length_append, superHead_length, leEnc_length])]
    exact List.prefix_refl _
  have hg2 : Grows b2 file := hg.mono (List.prefix_append _ _) (by omega)
  have hg1 : Grows b1 file := hg2.mono k3 (by omega)
  have hg0 : Grows buf file := hg1.mono hpre1 (by omega)
  have hfl := hg.length (by rw [List.length_append]; omega)
  rw [List.length_append] at hfl
  obtain ⟨hh, hhe⟩ := hheapat file hg1 hlen
  have main : ∀ heap, HeapHas heap H → ∃ o, o.info.name = [] ∧ o.info.addr = b2.length ∧ Stored file o ∧
      GroupObj heap file env (sortG root') o ∧ (addrsBelow o).Nodup ∧ (∀ x ∈ addrsBelow o, x < b2.length) ∧
      OpensTo file o ∧ Fmt.FileHolds file o := by
    intro heap hh
    obtain ⟨b2', ls', hdr', k1', k2', -, -, k5⟩ := key _ hh
    rw [k1, Res.ok.injEq, Prod.mk.injEq] at k1'
    obtain ⟨rfl, rfl⟩ := k1'
    rw [k2, Res.ok.injEq] at k2'
    subst k2'
    have hscin : ScalesIn heap file env (sortG root').info.vars := by
      rw [hsv]
      intro v hv hvs
      obtain ⟨x, g1, g2, g3, g4⟩ := hsc.at_ v hv hvs
      obtain ⟨o, q1, q2, q3⟩ := g4 heap file hg0 hlen
      refine ⟨o, by rw [q1, heda, g1]; rfl, q2, ?_⟩
      have : dimListPair env v = [] := by
        simp [dimListPair, heh, hvs]
      rw [fullAttrs, this, List.append_nil]
      exact q3
    obtain ⟨o, o1, o2, o3, o4, o5, o6⟩ := k5 file hg hlen hscin
    obtain ⟨ovs, oss, hkids, hginfo, hovs, -⟩ := o4.inv
    have hgrp : o.info.isGroup = true := hginfo.grp
    refine ⟨o, o1, o2, o3, o4, o5, o6, ?_, ?_⟩
    · exact o3.opens (body := body) (sum := sum) (by rw [o2]; exact hfile.symm) (by rw [o2]; exact f1)
        hlen o1 hgrp (by omega) o5
    · exact o3.fileHolds (body := body) (sum := sum) (by rw [o2]; exact hfile.symm) (by rw [o2]; exact f1)
        o1 hgrp (by omega) o5
  obtain ⟨o, o1, o2, o3, o4, o5, o6, o7, o8⟩ := main _ hh
  obtain ⟨ovs, oss, hkids, hginfo, hovs, -⟩ := o4.inv
  have honly : ∀ n x, env.dimAddrs.get n = some x → ∃ v ∈ root'.info.vars, v.isScale = true ∧ v.name = n := by
    intro n x hx
    rw [heda] at hx
    apply Classical.byContradiction
    intro hcon
    have := hsc.other n (fun v hv hvs hvn => hcon ⟨v, hperm.mem_iff.1 hv, hvs, hvn⟩)
    rw [hx] at this
    cases this
  have hsclt : ∀ v ∈ root'.info.vars, v.isScale = true →
      ∃ x, env.dimAddrs.get v.name = some x ∧ x < buf.length := by
    intro v hv hvs
    obtain ⟨x, g1, g2, g3, g4⟩ := hsc.at_ v (hperm.mem_iff.2 hv) hvs
    exact ⟨x, by rw [heda]; exact g1, g3⟩
  refine ⟨o, o7, o1, o4, ?_, by rw [heh]; simp, ?_, ?_, honly, o8, ?_⟩
  · rw [List.nodup_cons]
    exact ⟨fun hmem => by have := o6 _ hmem; omega, o5⟩
  · intro n x hx
    obtain ⟨v, hv, hvs, rfl⟩ := honly n x hx
    obtain ⟨y, g1, g2⟩ := hsclt v hv hvs
    rw [hx] at g1
    cases g1
    omega
  · intro v hv hvs
    obtain ⟨x, g1, g2⟩ := hsclt v hv hvs
    obtain ⟨k, hk, hkv⟩ := hovs.right (show v ∈ (sortG root').info.vars by
      rw [hsv]; exact hperm.mem_iff.2 hv)
    refine ⟨k, by rw [hkids]; simp [hk], hkv.obj.name, ?_⟩
    rw [hkv.addr hvs, g1]
    rfl
  · intro heap hfi
    obtain ⟨p, -, -, -, p4, -, -, p7, -⟩ := main heap (hhe heap hfi)
    rw [OpensTo.unique o7 p7]
    exact p4

end Verif.H5
