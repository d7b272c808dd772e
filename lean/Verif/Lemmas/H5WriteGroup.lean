import Verif.Lemmas.H5Write
/-!
Groups that have been written are found again.
-/
namespace Verif.H5

/-- The attributes of a variable in the file. -/
def fullAttrs (env : Env) (v : HVar) : List (Bytes × GoVal) := v.attrs.getD [] ++ dimListPair env v

/-- The header object of a group, without its members. -/
structure GroupInfoOK (heap : HeapFn) (attrs : HAttrs) (i : Info) : Prop where
  grp : i.isGroup = true
  dims : i.dims = none
  attrs : All2 (AttrHolds heap) i.attrs (attrs.getD [])
  fill : ∃ f, attrFill i = .ok f

/-- The object of a variable; a dimension scale is where references to it say. -/
structure VarAt (heap : HeapFn) (file : Bytes) (env : Env) (o : Obj) (v : HVar) : Prop where
  obj : VarObj heap file v (fullAttrs env v) o
  addr : v.isScale = true → o.info.addr = (env.dimAddrs.get v.name).getD 0

/-- The object of a group: its members are the variables and the subgroups. -/
inductive GroupObj (heap : HeapFn) (file : Bytes) (env : Env) : HGroup → Obj → Prop
  | mk (i : GInfo) (subs : List HGroup) (oi : Info) (vs ss : List Obj) :
      GroupInfoOK heap i.attrs oi →
      All2 (VarAt heap file env) vs i.vars →
      ss.length = subs.length →
      (∀ p ∈ ss.zip subs, p.1.info.name = p.2.name) →
      (∀ p ∈ ss.zip subs, GroupObj heap file env p.2 p.1) →
      GroupObj heap file env (.mk i subs) (.mk oi (vs ++ ss))

theorem GroupObj.inv {heap : HeapFn} {file : Bytes} {env : Env} {g : HGroup} {o : Obj}
    (h : GroupObj heap file env g o) : ∃ vs ss, o.kids = vs ++ ss ∧
      GroupInfoOK heap g.info.attrs o.info ∧ All2 (VarAt heap file env) vs g.info.vars ∧
      All2 (fun s h => s.info.name = h.name ∧ GroupObj heap file env h s) ss g.subs := by
  cases h with
  | mk i subs oi vs ss h1 h2 h3 h4 h5 =>
    exact ⟨vs, ss, rfl, h1, h2, h3, fun p hp => ⟨h4 p hp, h5 p hp⟩⟩

theorem addrsBelowL_append (xs ys : List Obj) :
    addrsBelowL (xs ++ ys) = addrsBelowL xs ++ addrsBelowL ys := by
  induction xs with
  | nil => rfl
  | cons x xs ih => simp [addrsBelowL, ih]

theorem addrsBelowL_leaves (xs : List Obj) (h : ∀ x ∈ xs, x.kids = []) :
    addrsBelowL xs = xs.map (·.info.addr) := by
  induction xs with
  | nil => rfl
  | cons x xs ih =>
    have hx := h x (by simp)
    cases x with
    | mk i kids =>
      simp only [Obj.kids] at hx
      subst hx
      simp [addrsBelowL, addrsBelow, ih (fun y hy => h y (by simp [hy]))]

/-- The link to an object. -/
def linkOf (o : Obj) : Bytes × Nat := (o.info.name, o.info.addr)

theorem buildLink_fits (name : Bytes) (addr : Nat) (h : name.length ≤ 255) :
    (⟨6, buildLink name addr⟩ : Msg).Fits := by
  refine ⟨(by decide : 6 < 256), ?_⟩
  simp only [buildLink, List.length_append, List.length_cons, List.length_nil, leEnc_length]
  omega

/-- The header of a group. -/
theorem groupHeader_ok (heap : HeapFn) (env : Env) (hbe : env.be = false) (path : List Bytes)
    (attrs : HAttrs) (links : List (Bytes × Nat))
    (ha : ∀ p ∈ attrs.getD [],
      AttrReady heap env.heap ((env.attrVlens.lookup (path, none, p.1)).getD []) p)
    (hfew : (attrs.getD []).length + links.length < 59000)
    (hn : (links.map (·.1)).Nodup) (hl : ∀ l ∈ links, l.1.length ≤ 255) :
    ∃ hdr, groupHeader env path attrs links = .ok hdr ∧ 0 < hdr.length ∧
      ∀ file addr name kids, links = kids.map linkOf → At file addr hdr → 0 < addr →
        (∀ k ∈ kids, k.info.addr < 2 ^ 64) → (∀ k ∈ kids, Stored file k) →
        ∃ oi, oi.name = name ∧ oi.addr = addr ∧ GroupInfoOK heap attrs oi ∧
          Stored file (.mk oi kids) := by
  obtain ⟨ms, a1, a2, a3, as, a4, a5⟩ := attrMsgs_ok heap env hbe path none _ ha
  generalize hall : ([⟨2, buildLinkInfo⟩, ⟨10, [0, 0]⟩] ++
    links.map (fun l => ⟨6, buildLink l.1 l.2⟩) ++ ms : List Msg) = all
  have hmsgs : groupMsgs env path attrs links = .ok all := by
    simp only [groupMsgs, a1, ← hall]
  have hfit : ∀ m ∈ all, m.Fits := by
    intro m hm
    rw [← hall, List.mem_append, List.mem_append] at hm
    rcases hm with (hm | hm) | hm
    · simp only [List.mem_cons, List.not_mem_nil, or_false] at hm
      rcases hm with rfl | rfl
      · exact ⟨(by decide : 2 < 256), by decide⟩
      · exact ⟨(by decide : 10 < 256), by decide⟩
    · obtain ⟨l, hl1, rfl⟩ := List.mem_map.1 hm
      exact buildLink_fits _ _ (hl l hl1)
    · exact a2 m hm
  have hcount : all.length < 60000 := by
    rw [← hall]
    simp only [List.length_append, List.length_cons, List.length_nil, List.length_map]
    omega
  obtain ⟨hdr, hh1, hh2, hh3⟩ := objectHeader_ok all hfit hcount
  refine ⟨hdr, by simp only [groupHeader, hmsgs, hh1], hh3, ?_⟩
  intro file addr name kids hk hat hpos hlt hst
  let i : Info := { name := name, addr := addr, isGroup := true,
                    link := some (0xffffffffffffffff, 0xffffffffffffffff), attrs := as }
  have heq : all = [⟨2, buildLinkInfo⟩, ⟨10, [0, 0]⟩] ++ linkMsgs kids ++ ms := by
    rw [← hall, hk, linkMsgs, List.map_map]
    rfl
  have hp1 := (plain_linkInfo { name := name, addr := addr } rfl).append (plain_groupInfo _)
  refine ⟨i, rfl, rfl, ⟨rfl, rfl, a4, ⟨_, rfl⟩⟩, ?_⟩
  refine Stored.mk i kids [⟨2, buildLinkInfo⟩, ⟨10, [0, 0]⟩] ms hdr _ (heq ▸ hh1) hat hpos
    (heq ▸ hfit) (heq ▸ hh2) hp1 (a5 _) (by simp [hasHeap, i, invalidAddress]) ?_ ?_ hst
  · rw [hk, List.map_map] at hn
    exact hn
  · intro k hkk
    refine ⟨?_, hlt k hkk⟩
    have := hl (linkOf k) (by rw [hk]; exact List.mem_map_of_mem hkk)
    exact this

/-! ### Variables -/

/-- The addresses of the dimension scales among these variables. -/
def scaleAddrs (env : Env) (vs : List HVar) : List Nat :=
  (vs.filter (·.isScale)).map fun v => (env.dimAddrs.get v.name).getD 0

/-- The scales among these variables are in the file. -/
def ScalesIn (heap : HeapFn) (file : Bytes) (env : Env) (vs : List HVar) : Prop :=
  ∀ v ∈ vs, v.isScale = true → ∃ o, o.info.addr = (env.dimAddrs.get v.name).getD 0 ∧
    Stored file o ∧ VarObj heap file v (fullAttrs env v) o

theorem writeVars_ok (heap : HeapFn) (env : Env) (hbe : env.be = false) (path : List Bytes) :
    ∀ (vs : List HVar) (buf : Bytes),
      (∀ v ∈ vs, v.isScale = false → VarReady heap env path v) → 48 ≤ buf.length →
      ∃ buf' ls, writeVars env path buf vs = .ok (buf', ls) ∧ buf <+: buf' ∧
        ls.map (·.1) = vs.map (·.name) ∧
        ∀ file, Grows buf' file → file.length < 2 ^ 63 → ScalesIn heap file env vs →
          (scaleAddrs env vs).Nodup → (∀ a ∈ scaleAddrs env vs, a < buf.length) →
          ∃ os, All2 (fun o v => Stored file o ∧ VarAt heap file env o v) os vs ∧
            ls = os.map linkOf ∧ (os.map (·.info.addr)).Nodup ∧
            ∀ a ∈ os.map (·.info.addr), a ∈ scaleAddrs env vs ∨ (buf.length ≤ a ∧ a < buf'.length) := by
  intro vs
  induction vs with
  | nil =>
    intro buf _ _
    refine ⟨buf, [], rfl, List.prefix_refl _, rfl, ?_⟩
    intro file _ _ _ _ _
    exact ⟨[], All2.nil _, rfl, by simp, by simp⟩
  | cons v vs ih =>
    intro buf hr hb
    cases hs : v.isScale with
    | true =>
      obtain ⟨buf', ls, h1, h2, h3, h4⟩ := ih buf (fun w hw => hr w (by simp [hw])) hb
      refine ⟨buf', (v.name, (env.dimAddrs.get v.name).getD 0) :: ls, ?_, h2, ?_, ?_⟩
      · simp only [writeVars, hs, ↓reduceIte, h1]
      · simp [h3]
      intro file hg hlen hsc hnd hlt
      have hsa : scaleAddrs env (v :: vs) =
          (env.dimAddrs.get v.name).getD 0 :: scaleAddrs env vs := by
        simp [scaleAddrs, hs]
      rw [hsa] at hnd hlt ⊢
      rw [List.nodup_cons] at hnd
      obtain ⟨os, g1, g2, g3, g4⟩ := h4 file hg hlen (fun w hw => hsc w (by simp [hw])) hnd.2
        (fun a ha => hlt a (by simp [ha]))
      obtain ⟨o, o1, o2, o3⟩ := hsc v (by simp) hs
      refine ⟨o :: os, g1.cons ⟨o2, o3, fun _ => o1⟩, ?_, ?_, ?_⟩
      · rw [List.map_cons, ← g2, linkOf, o1, o3.name]
      · rw [List.map_cons, List.nodup_cons]
        refine ⟨fun hm => ?_, g3⟩
        rcases g4 _ hm with h | h
        · rw [o1] at h
          exact hnd.1 h
        · have := hlt ((env.dimAddrs.get v.name).getD 0) (by simp)
          omega
      · intro a ha
        rw [List.map_cons, List.mem_cons] at ha
        rcases ha with rfl | ha
        · left
          simp [o1]
        · rcases g4 a ha with h | h
          · left; simp [h]
          · right; exact h
    | false =>
      obtain ⟨buf1, addr, w1, w2, w3, w4, w5⟩ :=
        writeVar_ok heap env hbe path buf v (hr v (by simp) hs) hb
      have hb1 := w2.length_le
      obtain ⟨buf', ls, h1, h2, h3, h4⟩ := ih buf1 (fun w hw => hr w (by simp [hw])) (by omega)
      have hb2 := h2.length_le
      refine ⟨buf', (v.name, addr) :: ls, ?_, w2.trans h2, by simp [h3], ?_⟩
      · simp only [writeVars, hs, Bool.false_eq_true, ↓reduceIte, w1, h1]
      intro file hg hlen hsc hnd hlt
      have hsa : scaleAddrs env (v :: vs) = scaleAddrs env vs := by
        simp [scaleAddrs, hs]
      rw [hsa] at hnd hlt ⊢
      obtain ⟨os, g1, g2, g3, g4⟩ := h4 file hg hlen (fun w hw => hsc w (by simp [hw])) hnd
        (fun a ha => by have := hlt a ha; omega)
      obtain ⟨o, o1, o2, o3⟩ := w5 file (hg.mono h2 (by omega)) hlen
      refine ⟨o :: os, g1.cons ⟨o2, o3, fun h => by rw [hs] at h; cases h⟩, ?_, ?_, ?_⟩
      · rw [List.map_cons, ← g2, linkOf, o1, o3.name]
      · rw [List.map_cons, List.nodup_cons]
        refine ⟨fun hm => ?_, g3⟩
        rcases g4 _ hm with h | h
        · have := hlt _ h
          omega
        · omega
      · intro a ha
        rw [List.map_cons, List.mem_cons] at ha
        rcases ha with rfl | ha
        · right
          omega
        · rcases g4 a ha with h | h
          · left; exact h
          · right; omega

/-! ### Groups -/

mutual
/-- The members of this group can be written. -/
def ContentsReady (heap : HeapFn) (env : Env) (path : List Bytes) : HGroup → Prop
  | .mk i subs =>
    (∀ v ∈ i.vars, v.isScale = false → VarReady heap env path v) ∧ SubsReady heap env path subs
/-- These subgroups can be written. -/
def SubsReady (heap : HeapFn) (env : Env) (path : List Bytes) : List HGroup → Prop
  | [] => True
  | g :: gs =>
    ((∀ p ∈ g.info.attrs.getD [],
        AttrReady heap env.heap ((env.attrVlens.lookup (path ++ [g.name], none, p.1)).getD []) p) ∧
      (∀ v ∈ g.info.vars, v.isScale = false) ∧
      (g.info.attrs.getD []).length + (g.info.vars.length + g.subs.length) < 59000 ∧
      (g.info.vars.map (·.name) ++ g.subs.map (·.name)).Nodup ∧
      (∀ n ∈ g.info.vars.map (·.name) ++ g.subs.map (·.name), n.length ≤ 255)) ∧
    ContentsReady heap env (path ++ [g.name]) g ∧ SubsReady heap env path gs
end

theorem scaleAddrs_none (env : Env) (vs : List HVar) (h : ∀ v ∈ vs, v.isScale = false) :
    scaleAddrs env vs = [] := by
  rw [scaleAddrs, List.filter_eq_nil_iff.2 (by intro v hv; simp [h v hv])]
  rfl

mutual
theorem writeContents_ok (heap : HeapFn) (env : Env) (hbe : env.be = false) (path : List Bytes)
    (g : HGroup) (buf : Bytes) (hr : ContentsReady heap env path g) (hb : 48 ≤ buf.length) :
    ∃ buf' ls, writeContents env path buf g = .ok (buf', ls) ∧ buf <+: buf' ∧
      ls.map (·.1) = g.info.vars.map (·.name) ++ g.subs.map (·.name) ∧
      ∀ file, Grows buf' file → file.length < 2 ^ 63 → ScalesIn heap file env g.info.vars →
        (scaleAddrs env g.info.vars).Nodup → (∀ a ∈ scaleAddrs env g.info.vars, a < buf.length) →
        ∃ vs ss, All2 (fun o v => Stored file o ∧ VarAt heap file env o v) vs g.info.vars ∧
          All2 (fun s h => Stored file s ∧ s.info.name = h.name ∧ GroupObj heap file env h s) ss g.subs ∧
          ls = (vs ++ ss).map linkOf ∧ (addrsBelowL (vs ++ ss)).Nodup ∧
          ∀ a ∈ addrsBelowL (vs ++ ss),
            a ∈ scaleAddrs env g.info.vars ∨ (buf.length ≤ a ∧ a < buf'.length) := by
  match g with
  | .mk i subs =>
    obtain ⟨hr1, hr2⟩ := hr
    obtain ⟨b1, l1, v1, v2, v3, v4⟩ := writeVars_ok heap env hbe path i.vars buf hr1 hb
    have e1 := v2.length_le
    obtain ⟨b2, l2, s1, s2, s3, s4⟩ := writeSubs_ok heap env hbe path subs b1 hr2 (by omega)
    have e2 := s2.length_le
    refine ⟨b2, l1 ++ l2, by simp only [writeContents, v1, s1], v2.trans s2, ?_, ?_⟩
    · simp [HGroup.info, HGroup.subs, v3, s3]
    intro file hg hlen hsc hnd hlt
    obtain ⟨vs, p1, p2, p3, p4⟩ := v4 file (hg.mono s2 (by omega)) hlen hsc hnd hlt
    obtain ⟨ss, q1, q2, q3, q4⟩ := s4 file hg hlen
    have hleaf : addrsBelowL vs = vs.map (·.info.addr) := by
      refine addrsBelowL_leaves vs (fun x hx => ?_)
      obtain ⟨y, -, hy⟩ := p1.left hx
      exact hy.2.obj.kids
    refine ⟨vs, ss, p1, q1, by rw [p2, q2, List.map_append], ?_, ?_⟩
    · rw [addrsBelowL_append, hleaf, List.nodup_append]
      refine ⟨p3, q3, fun a ha b hb2 hab => ?_⟩
      have h1 := q4 b hb2
      rcases p4 a ha with h2 | h2
      · have := hlt a h2
        omega
      · omega
    · intro a ha
      rw [addrsBelowL_append, hleaf, List.mem_append] at ha
      rcases ha with ha | ha
      · rcases p4 a ha with h2 | h2
        · left; exact h2
        · right; omega
      · have := q4 a ha
        right
        omega
theorem writeSubs_ok (heap : HeapFn) (env : Env) (hbe : env.be = false) (path : List Bytes)
    (gs : List HGroup) (buf : Bytes) (hr : SubsReady heap env path gs) (hb : 48 ≤ buf.length) :
    ∃ buf' ls, writeSubs env path buf gs = .ok (buf', ls) ∧ buf <+: buf' ∧
      ls.map (·.1) = gs.map (·.name) ∧
      ∀ file, Grows buf' file → file.length < 2 ^ 63 →
        ∃ ss, All2 (fun s h => Stored file s ∧ s.info.name = h.name ∧ GroupObj heap file env h s) ss gs ∧
          ls = ss.map linkOf ∧ (addrsBelowL ss).Nodup ∧
          ∀ a ∈ addrsBelowL ss, buf.length ≤ a ∧ a < buf'.length := by
  match gs with
  | [] =>
    refine ⟨buf, [], rfl, List.prefix_refl _, rfl, fun file _ _ => ?_⟩
    exact ⟨[], All2.nil _, rfl, by simp [addrsBelowL], by simp [addrsBelowL]⟩
  | .mk i subs :: gs =>
    obtain ⟨⟨h1, h2, h3, h4, h5⟩, h6, h7⟩ := hr
    obtain ⟨b1, links, c1, c2, c3, c4⟩ :=
      writeContents_ok heap env hbe (path ++ [(HGroup.mk i subs).name]) (.mk i subs) buf h6 hb
    have e1 := c2.length_le
    have hlinks : links.length = i.vars.length + subs.length := by
      have := congrArg List.length c3
      simpa [HGroup.info, HGroup.subs] using this
    obtain ⟨hdr, d1, d2, d3⟩ := groupHeader_ok heap env hbe (path ++ [(HGroup.mk i subs).name])
      (HGroup.mk i subs).info.attrs links h1 (by rw [hlinks]; exact h3) (by rw [c3]; exact h4)
      (fun l hl => h5 _ (by rw [← c3]; exact List.mem_map_of_mem hl))
    obtain ⟨b2, ls, s1, s2, s3, s4⟩ := writeSubs_ok heap env hbe path gs (b1 ++ hdr) h7
      (by rw [List.length_append]; omega)
    have e2 := s2.length_le
    rw [List.length_append] at e2
    refine ⟨b2, ((HGroup.mk i subs).name, b1.length) :: ls, ?_, ?_, by simp [s3], ?_⟩
    · simp only [writeSubs, c1, d1, s1]
    · exact (c2.trans (List.prefix_append _ _)).trans s2
    intro file hg hlen
    have hg1 : Grows (b1 ++ hdr) file := hg.mono s2 (by rw [List.length_append]; omega)
    have hfl := hg.length (by omega)
    obtain ⟨vs, ss, p1, p2, p3, p4, p5⟩ := c4 file (hg1.mono (List.prefix_append _ _) (by omega)) hlen
      (fun v hv hs => by rw [h2 v hv] at hs; cases hs)
      (by rw [scaleAddrs_none env _ h2]; simp) (by rw [scaleAddrs_none env _ h2]; simp)
    rw [scaleAddrs_none env _ h2] at p5
    have hmem : ∀ k ∈ vs ++ ss, k.info.addr ∈ addrsBelowL (vs ++ ss) := by
      generalize vs ++ ss = ks
      induction ks with
      | nil => simp
      | cons k ks ih =>
        intro x hx
        rw [List.mem_cons] at hx
        rcases hx with rfl | hx
        · simp [addrsBelowL]
        · simp [addrsBelowL, ih x hx]
    have hbd : ∀ a ∈ addrsBelowL (vs ++ ss), buf.length ≤ a ∧ a < b1.length := by
      intro a ha
      rcases p5 a ha with h | h
      · simp at h
      · exact h
    obtain ⟨oi, o1, o2, o3, o4⟩ := d3 file b1.length (HGroup.mk i subs).name (vs ++ ss) p3
      (Grows.at (post := []) (by rwa [List.append_nil]) (by omega)) (by omega)
      (fun k hk => by have := hbd _ (hmem k hk); omega)
      (fun k hk => by
        rw [List.mem_append] at hk
        rcases hk with hk | hk
        · obtain ⟨y, -, hy⟩ := p1.left hk
          exact hy.1
        · obtain ⟨y, -, hy⟩ := p2.left hk
          exact hy.1)
    obtain ⟨rs, r1, r2, r3, r4⟩ := s4 file hg hlen
    refine ⟨.mk oi (vs ++ ss) :: rs, r1.cons ⟨o4, o1, ?_⟩, ?_, ?_, ?_⟩
    · exact GroupObj.mk i subs oi vs ss o3 (p1.mono (fun _ _ _ _ h => h.2)) p2.1
        (fun p hp => (p2.2 p hp).2.1) (fun p hp => (p2.2 p hp).2.2)
    · rw [List.map_cons, ← r2, linkOf]
      simp only [Obj.info, o1, o2]
    · simp only [addrsBelowL, addrsBelow, Obj.info, o2, List.cons_append, List.nodup_cons,
        List.nodup_append, List.mem_append]
      refine ⟨?_, p4, r3, ?_⟩
      · rintro (h | h)
        · have := hbd _ h
          omega
        · have := r4 _ h
          rw [List.length_append] at this
          omega
      · intro a ha b hb' hab
        have h8 := hbd _ ha
        have h9 := r4 _ hb'
        rw [List.length_append] at h9
        omega
    · intro a ha
      simp only [addrsBelowL, addrsBelow, Obj.info, o2, List.cons_append, List.mem_cons,
        List.mem_append] at ha
      rcases ha with rfl | ha | ha
      · omega
      · have := hbd _ ha
        omega
      · have := r4 _ ha
        rw [List.length_append] at this
        omega
end

end Verif.H5
