import Verif.Lemmas.H5DenseOK
import Verif.Spec.H5Others
/-!
The reader on a whole file as described in `Spec/H5Others`.
-/
namespace Verif.H5
open Fmt

theorem allAddrs_append (xs ys : List Obj) : allAddrs (xs ++ ys) = allAddrs xs ++ allAddrs ys := by
  induction xs with
  | nil => rfl
  | cons x xs ih => simp only [List.cons_append, allAddrs, ih, List.append_assoc]

theorem addrsBelow_eq (o : Obj) : addrsBelow o = o.info.addr :: allAddrs o.kids := by
  cases o
  rfl

theorem allAddrs_singleton (o : Obj) : allAddrs [o] = addrsBelow o := by
  simp [allAddrs]

theorem effect_name (m : Message) (i : Info) : (m.effect i).name = i.name ∧ (m.effect i).addr = i.addr := by
  cases m <;> simp only [Message.effect, and_self]
  case fill1 v => split <;> simp
  case fill2 v => split <;> simp
  case fill3 v => split <;> simp
  case contiguous => split <;> simp
  case chunked => split <;> simp

theorem plain_run (m : Message) (hp : m.Plain = true) (w : Task → St → Res St) (v fl : Nat) (st : St) :
    m.run w v fl st = .ok { st with info := m.effect st.info } := by
  cases m <;> first | rfl | cases hp

/-- A new member of a group. -/
def addMember (walk : Task → St → Res St) (m : Member) (st : St) : Res St :=
  if st.kids.any (fun k => k.info.name == m.name) then .err .assertFail
  else if st.addrs.contains m.addr then .err .assertFail
  else addObject walk m.name m.addr m.order m.group st

theorem addMember_new (walk : Task → St → Res St) (n : Bytes) (a : Nat) (st st' : St)
    (h : addMember walk ⟨n, a, 0, true⟩ st = .ok st') : addNew walk (n, a) st = .ok st' := h

theorem addMember_link (walk : Task → St → Res St) (n : Bytes) (a co : Nat) (st st' : St)
    (h : addMember walk ⟨n, a, co, false⟩ st = .ok st') : addLink walk n a co st = .ok st' := by
  unfold addMember at h
  unfold addLink
  by_cases h1 : st.kids.any (fun k => k.info.name == n) = true
  · rw [if_pos h1] at h; cases h
  · rw [if_neg h1] at h ⊢
    by_cases h2 : st.addrs.contains a = true
    · rw [if_pos h2] at h; cases h
    · rw [if_neg h2] at h ⊢
      exact h

/-- Names of objects. -/
def names (os : List Obj) : List Bytes := os.map fun k => k.info.name

/-- What the reader does with it. -/
def Good (file : Bytes) : Says → Prop
  | .messages v fl ms i i' kids => i'.name = i.name ∧ i'.addr = i.addr ∧
    ∃ N, ∀ fuel, N ≤ fuel → ∀ ks A, (names (ks ++ kids)).Nodup → (A ++ allAddrs kids).Nodup →
      runMessages (walk file fuel) v fl ms ⟨i, ks, A⟩ = .ok ⟨i', ks ++ kids, A ++ allAddrs kids⟩ ∧
      AllAllowed (walk file fuel) v fl ms ⟨i, ks, A⟩
  | .header addr i i' kids => i'.name = i.name ∧ i'.addr = i.addr ∧
    ∃ N, ∀ fuel, N ≤ fuel → ∀ i0 ks A, { i0 with addr := addr } = i → (names kids).Nodup →
      (A ++ allAddrs kids).Nodup →
      walk file fuel (.header addr) ⟨i0, ks, A⟩ = .ok ⟨i', kids, A ++ allAddrs kids⟩
  | .object m o => o.info.name = m.name ∧ o.info.addr = m.addr ∧
    ∃ N, ∀ fuel, N ≤ fuel → ∀ st : St, (st.addrs ++ addrsBelow o).Nodup →
      addObject (walk file fuel) m.name m.addr m.order m.group st =
        .ok ⟨st.info, st.kids ++ [o], st.addrs ++ addrsBelow o⟩
  | .objects ms os => os.length = ms.length ∧
    ∃ N, ∀ fuel, N ≤ fuel → ∀ st : St, (names (st.kids ++ os)).Nodup → (st.addrs ++ allAddrs os).Nodup →
      Chain (addMember (walk file fuel)) ms st ⟨st.info, st.kids ++ os, st.addrs ++ allAddrs os⟩

theorem addMember_ok {walk : Task → St → Res St} {m : Member} {o : Obj} {st st' : St}
    (hn : o.info.name = m.name) (ha : o.info.addr = m.addr)
    (h1 : (names (st.kids ++ [o])).Nodup) (h2 : (st.addrs ++ addrsBelow o).Nodup)
    (h : addObject walk m.name m.addr m.order m.group st = .ok st') : addMember walk m st = .ok st' := by
  unfold addMember
  rw [if_neg, if_neg, h]
  · rw [addrsBelow_eq, ha, List.nodup_append] at h2
    intro hc
    exact h2.2.2 m.addr (by simpa using hc) m.addr (by simp) rfl
  · unfold names at h1
    rw [List.map_append, List.nodup_append] at h1
    intro hc
    rw [List.any_eq_true] at hc
    obtain ⟨k, hk, he⟩ := hc
    exact h1.2.2 k.info.name (List.mem_map_of_mem hk) o.info.name (by simp) (by rw [hn]; simpa using he)

theorem undef_invalid : undefAddr = invalidAddress := rfl

theorem info_attrs_nil (i : Info) : { i with attrs := i.attrs ++ [] } = i := by
  rw [List.append_nil]

theorem denseAttrs_none (walk : Task → St → Res St) (file : Bytes) (fuel : Nat) (st : St)
    (h : st.info.attr = none) : readDenseAttrs walk file fuel st = .ok (st, none) := by
  unfold readDenseAttrs
  rw [h]

theorem denseAttrs_some (walk : Task → St → Res St) (file : Bytes) (fuel : Nat) (st : St) (a b : Nat)
    (h : st.info.attr = some (a, b)) : readDenseAttrs walk file fuel st =
      if a ≠ invalidAddress then do
        let ha ← readHeap file a
        let st' ← readBTree2 walk file ⟨st.info.link.map fun _ => {}, some ha, fuel⟩ b st
        .ok (st', some ha)
      else .ok (st, some {}) := by
  unfold readDenseAttrs
  rw [h]

theorem denseLinks_none (walk : Task → St → Res St) (file : Bytes) (fuel : Nat) (x : Option HeapInfo) (st : St)
    (h : st.info.link = none) : readDenseLinks walk file fuel x st = .ok st := by
  unfold readDenseLinks
  rw [h]

theorem denseLinks_some (walk : Task → St → Res St) (file : Bytes) (fuel : Nat) (x : Option HeapInfo) (st : St)
    (a b : Nat) (h : st.info.link = some (a, b)) : readDenseLinks walk file fuel x st =
      if a ≠ invalidAddress then do
        let hl ← readHeap file a
        readBTree2 walk file ⟨some hl, x, fuel⟩ b st
      else .ok st := by
  unfold readDenseLinks
  rw [h]

theorem dump_ok {file : Bytes} (hf : file.length < 2 ^ 63) {i : Info} {as : List Attr}
    {ls : List (Bytes × Nat × Nat)} {kids2 : List Obj} (ha : AttrsOf file i.attr as) (hl : LinksOf file i.link ls)
    (hk : Good file (.objects (ls.map fun l => ⟨l.1, l.2.1, l.2.2, false⟩) kids2)) :
    ∃ N, ∀ fuel, N ≤ fuel → ∀ ks A, (names (ks ++ kids2)).Nodup → (A ++ allAddrs kids2).Nodup →
      dumpObject (walk file fuel) ⟨i, ks, A⟩ =
        .ok ⟨{ i with attrs := i.attrs ++ as }, ks ++ kids2, A ++ allAddrs kids2⟩ := by
  obtain ⟨hkl, N, hN⟩ := hk
  -- the attributes
  have hattr : ∃ (x : Option HeapInfo) (M : Nat), ∀ fuel, M ≤ fuel → ∀ walk ks A,
      readDenseAttrs walk file fuel ⟨i, ks, A⟩ = .ok (⟨{ i with attrs := i.attrs ++ as }, ks, A⟩, x) := by
    unfold AttrsOf at ha
    obtain hi | ⟨p, hi⟩ : i.attr = none ∨ ∃ p, i.attr = some p := by cases i.attr <;> simp
    · rw [hi] at ha
      refine ⟨none, 0, fun fuel _ walk ks A => ?_⟩
      subst ha
      rw [denseAttrs_none _ _ _ _ hi, info_attrs_nil]
    · obtain ⟨h, b⟩ := p
      rw [hi] at ha
      simp only at ha
      by_cases hu : h = undefAddr
      · rw [if_pos hu] at ha
        refine ⟨some {}, 0, fun fuel _ walk ks A => ?_⟩
        subst ha
        rw [undef_invalid] at hu
        rw [denseAttrs_some _ _ _ _ _ _ hi, if_neg (by simp [hu]), info_attrs_nil]
      · rw [if_neg hu] at ha
        obtain ⟨hh, he, M, hM⟩ := denseAttrs_ok hf ha
        refine ⟨some hh, M, fun fuel hfuel walk ks A => ?_⟩
        rw [undef_invalid] at hu
        rw [denseAttrs_some _ _ _ _ _ _ hi, if_pos hu, he, Res.bind_ok, hM fuel hfuel]
        rfl
  -- the links
  have hlink : ∃ M : Nat, ∀ fuel, M ≤ fuel → ∀ fuel', N ≤ fuel' → ∀ x ks A,
      (names (ks ++ kids2)).Nodup → (A ++ allAddrs kids2).Nodup →
      readDenseLinks (walk file fuel') file fuel x ⟨{ i with attrs := i.attrs ++ as }, ks, A⟩ =
        .ok ⟨{ i with attrs := i.attrs ++ as }, ks ++ kids2, A ++ allAddrs kids2⟩ := by
    have empty : ls = [] → kids2 = [] := by
      intro e
      subst e
      exact List.eq_nil_of_length_eq_zero hkl
    unfold LinksOf at hl
    obtain hi | ⟨p, hi⟩ : i.link = none ∨ ∃ p, i.link = some p := by cases i.link <;> simp
    · rw [hi] at hl
      have := empty hl
      subst this
      refine ⟨0, fun fuel _ fuel' _ x ks A _ _ => ?_⟩
      rw [denseLinks_none _ _ _ _ _ hi, List.append_nil, allAddrs, List.append_nil]
    · obtain ⟨h, b⟩ := p
      rw [hi] at hl
      simp only at hl
      by_cases hu : h = undefAddr
      · rw [if_pos hu] at hl
        have := empty hl
        subst this
        refine ⟨0, fun fuel _ fuel' _ x ks A _ _ => ?_⟩
        rw [undef_invalid] at hu
        rw [denseLinks_some _ _ _ _ _ _ _ hi, if_neg (by simp [hu]), List.append_nil, allAddrs, List.append_nil]
      · rw [if_neg hu] at hl
        obtain ⟨hh, he, M, hM⟩ := denseLinks_ok hf hl
        refine ⟨M, fun fuel hfuel fuel' hfuel' x ks A h1 h2 => ?_⟩
        rw [undef_invalid] at hu
        rw [denseLinks_some _ _ _ _ _ _ _ hi, if_pos hu, he, Res.bind_ok]
        refine hM fuel hfuel _ _ _ _ ?_
        have hc := (hN fuel' hfuel' ⟨{ i with attrs := i.attrs ++ as }, ks, A⟩ h1 h2).map
        exact hc.imp fun l _ s s1 h => addMember_link _ _ _ _ _ _ h
  obtain ⟨x, M1, h1⟩ := hattr
  obtain ⟨M2, h2⟩ := hlink
  refine ⟨max N (max M1 M2) + 1, fun fuel hfuel ks A hn hd => ?_⟩
  unfold dumpObject
  by_cases hh : (hasHeap i.attr || hasHeap i.link) = true
  · obtain ⟨fuel, rfl⟩ : ∃ f, fuel = f + 1 := ⟨fuel - 1, by omega⟩
    rw [if_pos hh]
    simp only [walk, readDense, h1 fuel (by omega), Res.bind_ok]
    exact h2 fuel (by omega) fuel (by omega) x ks A hn hd
  · rw [if_neg hh]
    have h1' := h1 fuel (by omega) (walk file fuel) ks A
    have h2' := h2 fuel (by omega) fuel (by omega) x ks A hn hd
    simp only [Bool.or_eq_true, not_or, Bool.not_eq_true] at hh
    have e1 : readDenseAttrs (walk file fuel) file fuel ⟨i, ks, A⟩ = .ok (⟨i, ks, A⟩, i.attr.map fun _ => {}) := by
      unfold readDenseAttrs
      cases hi : i.attr with
      | none => simp
      | some p =>
        have := hh.1
        rw [hi] at this
        simp only [hasHeap, bne_eq_false_iff_eq] at this
        simp [this]
    have e2 : ∀ x st, st.info.link = i.link → readDenseLinks (walk file fuel) file fuel x st = .ok st := by
      intro x st hst
      unfold readDenseLinks
      rw [hst]
      cases hi : i.link with
      | none => simp
      | some p =>
        have := hh.2
        rw [hi] at this
        simp only [hasHeap, bne_eq_false_iff_eq] at this
        simp [this]
    rw [e2 _ _ rfl] at h2'
    rw [e1] at h1'
    simp only [Res.ok.injEq, Prod.mk.injEq] at h1'
    rw [h1'.1, h2']

theorem good {file : Bytes} (hf : file.length < 2 ^ 63) {s : Says} (h : Holds file s) : Good file s := by
  induction h with
  | nil =>
    refine ⟨rfl, rfl, 0, fun fuel _ ks A _ _ => ?_⟩
    simp [runMessages, AllAllowed, allAddrs]
  | @plain v fl m ms i i' kids hp ha h ih =>
    obtain ⟨h1, h2, N, hN⟩ := ih
    obtain ⟨e1, e2⟩ := effect_name m i
    refine ⟨h1.trans e1, h2.trans e2, N, fun fuel hfuel ks A hn hd => ?_⟩
    obtain ⟨g1, g2⟩ := hN fuel hfuel ks A hn hd
    refine ⟨?_, ha, ?_⟩
    · simp only [runMessages, plain_run m hp, Res.bind_ok]
      exact g1
    · intro st' hst
      rw [plain_run m hp] at hst
      cases hst
      exact g2
  | @link v fl w t o c name addr ms i i' child kids hc h ihc ih =>
    obtain ⟨c1, c2, N1, hN1⟩ := ihc
    obtain ⟨h1, h2, N, hN⟩ := ih
    refine ⟨h1, h2, max N1 N, fun fuel hfuel ks A hn hd => ?_⟩
    have hd' : (A ++ addrsBelow child ++ allAddrs kids).Nodup := by
      simpa [allAddrs] using hd
    have hn' : (names (ks ++ [child] ++ kids)).Nodup := by simpa using hn
    have hd1 := (List.nodup_append.mp hd').1
    have hn1 : (names (ks ++ [child])).Nodup := by
      have := hn'
      unfold names at this ⊢
      rw [List.map_append] at this
      exact (List.nodup_append.mp this).1
    have hrun : (Message.link w t o c name addr).run (walk file fuel) v fl ⟨i, ks, A⟩ =
        .ok ⟨i, ks ++ [child], A ++ addrsBelow child⟩ := by
      refine addMember_link _ _ _ _ _ _ ?_
      exact addMember_ok (m := ⟨name, addr, o.getD 0, false⟩) c1 c2 hn1 hd1 (hN1 fuel (by omega) ⟨i, ks, A⟩ hd1)
    obtain ⟨g1, g2⟩ := hN fuel (by omega) (ks ++ [child]) (A ++ addrsBelow child) hn' hd'
    refine ⟨?_, trivial, ?_⟩
    · simp only [runMessages, hrun, Res.bind_ok, g1, allAddrs, List.append_assoc, List.singleton_append]
    · intro st' hst
      rw [hrun] at hst
      cases hst
      exact g2
  | @symbols v fl btree heap es ms i i' kids1 kids ht hc h ihc ih =>
    obtain ⟨-, N1, hN1⟩ := ihc
    obtain ⟨h1, h2, N, hN⟩ := ih
    refine ⟨h1, h2, max (N1 + 1) N, fun fuel hfuel ks A hn hd => ?_⟩
    rw [← List.append_assoc] at hn
    rw [allAddrs_append, ← List.append_assoc] at hd
    have hd1 := (List.nodup_append.mp hd).1
    have hn1 : (names (ks ++ kids1)).Nodup := by
      unfold names at hn ⊢
      rw [List.map_append] at hn
      exact (List.nodup_append.mp hn).1
    obtain ⟨f, rfl⟩ : ∃ f, fuel = f + 1 := ⟨fuel - 1, by omega⟩
    have hrun : (Message.symbolTable btree heap).run (walk file (f + 1)) v fl ⟨i, ks, A⟩ =
        .ok ⟨{ i with isGroup := true }, ks ++ kids1, A ++ allAddrs kids1⟩ := by
      simp only [Message.run, walk]
      refine readSymTable_ok _ hf btree heap es ht _ _ ?_
      have hc := (hN1 f (by omega) ⟨{ i with isGroup := true }, ks, A⟩ hn1 hd1).map
      exact hc.imp fun l _ s s1 h => h
    obtain ⟨g1, g2⟩ := hN (f + 1) (by omega) (ks ++ kids1) (A ++ allAddrs kids1) hn hd
    refine ⟨?_, trivial, ?_⟩
    · simp only [runMessages, hrun, Res.bind_ok, g1, allAddrs_append, List.append_assoc]
    · intro st' hst
      rw [hrun] at hst
      cases hst
      exact g2
  | @more2 fl addr gap tracked more ms i i1 i' kids1 kids hfl hg hm hb hat h1 h ih1 ih =>
    obtain ⟨p1, p2, N1, hN1⟩ := ih1
    obtain ⟨q1, q2, N, hN⟩ := ih
    refine ⟨q1.trans p1, q2.trans p2, max (N1 + 1) N, fun fuel hfuel ks A hn hd => ?_⟩
    rw [← List.append_assoc] at hn
    rw [allAddrs_append, ← List.append_assoc] at hd
    have hd1 := (List.nodup_append.mp hd).1
    have hn1 : (names (ks ++ kids1)).Nodup := by
      unfold names at hn ⊢
      rw [List.map_append] at hn
      exact (List.nodup_append.mp hn).1
    obtain ⟨f, rfl⟩ : ∃ f, fuel = f + 1 := ⟨fuel - 1, by omega⟩
    obtain ⟨r1, r2⟩ := hN1 f (by omega) ks A hn1 hd1
    have hrun := walk_cont2 file tracked fl gap more addr f ⟨i, ks, A⟩ hfl hg hm r2 hb hat hf
    rw [r1] at hrun
    have hrun : (Message.continuation addr (chunk2 tracked more gap).length).run (walk file (f + 1)) 2 fl ⟨i, ks, A⟩ =
        .ok ⟨i1, ks ++ kids1, A ++ allAddrs kids1⟩ := hrun
    obtain ⟨g1, g2⟩ := hN (f + 1) (by omega) (ks ++ kids1) (A ++ allAddrs kids1) hn hd
    refine ⟨?_, trivial, ?_⟩
    · simp only [runMessages, hrun, Res.bind_ok, g1, allAddrs_append, List.append_assoc]
    · intro st' hst
      rw [hrun] at hst
      cases hst
      exact g2
  | @more1 addr more ms i i1 i' kids1 kids hm hne hat h1 h ih1 ih =>
    obtain ⟨p1, p2, N1, hN1⟩ := ih1
    obtain ⟨q1, q2, N, hN⟩ := ih
    refine ⟨q1.trans p1, q2.trans p2, max (N1 + 1) N, fun fuel hfuel ks A hn hd => ?_⟩
    rw [← List.append_assoc] at hn
    rw [allAddrs_append, ← List.append_assoc] at hd
    have hd1 := (List.nodup_append.mp hd).1
    have hn1 : (names (ks ++ kids1)).Nodup := by
      unfold names at hn ⊢
      rw [List.map_append] at hn
      exact (List.nodup_append.mp hn).1
    obtain ⟨f, rfl⟩ : ∃ f, fuel = f + 1 := ⟨fuel - 1, by omega⟩
    obtain ⟨r1, r2⟩ := hN1 f (by omega) ks A hn1 hd1
    have hrun := walk_cont1 file more addr f ⟨i, ks, A⟩ hm hne r2 hat hf
    rw [r1] at hrun
    have hrun : (Message.continuation addr (frames1 more).length).run (walk file (f + 1)) 1 0 ⟨i, ks, A⟩ =
        .ok ⟨i1, ks ++ kids1, A ++ allAddrs kids1⟩ := hrun
    obtain ⟨g1, g2⟩ := hN (f + 1) (by omega) (ks ++ kids1) (A ++ allAddrs kids1) hn hd
    refine ⟨?_, trivial, ?_⟩
    · simp only [runMessages, hrun, Res.bind_ok, g1, allAddrs_append, List.append_assoc]
    · intro st' hst
      rw [hrun] at hst
      cases hst
      exact g2
  | @header2 addr hd ms i i' kids hh hm hsize hb h0 hat h ih =>
    obtain ⟨p1, p2, N, hN⟩ := ih
    refine ⟨p1, p2, N + 1, fun fuel hfuel i0 ks A hi hn hdd => ?_⟩
    obtain ⟨f, rfl⟩ : ∃ f, fuel = f + 1 := ⟨fuel - 1, by omega⟩
    obtain ⟨r1, r2⟩ := hN f (by omega) [] A (by simpa using hn) hdd
    rw [walk_header2 file hd ms addr f ⟨i0, ks, A⟩ hh hm (by simp only [hi]; exact r2) hsize hb hat hf h0]
    simp only [hi]
    simpa using r1
  | @header1 addr refs ms i i' kids hm hn hr hsize h0 hat h ih =>
    obtain ⟨p1, p2, N, hN⟩ := ih
    refine ⟨p1, p2, N + 1, fun fuel hfuel i0 ks A hi hnn hdd => ?_⟩
    obtain ⟨f, rfl⟩ : ∃ f, fuel = f + 1 := ⟨fuel - 1, by omega⟩
    obtain ⟨r1, r2⟩ := hN f (by omega) [] A (by simpa using hnn) hdd
    rw [walk_header1 file refs ms addr f ⟨i0, ks, A⟩ hm hn hr (by simp only [hi]; exact r2) hsize hat hf h0]
    simp only [hi]
    simpa using r1
  | @object m i as ls kids1 kids2 hh ha hl hk hn ihh ihk =>
    obtain ⟨p1, p2, N, hN⟩ := ihh
    obtain ⟨M, hM⟩ := dump_ok hf ha hl ihk
    refine ⟨p1, p2, max N M, fun fuel hfuel st hd => ?_⟩
    have e : addrsBelow (.mk { i with attrs := i.attrs ++ as } (kids1 ++ kids2)) =
        m.addr :: (allAddrs kids1 ++ allAddrs kids2) := by
      rw [addrsBelow_eq, Obj.kids, allAddrs_append]
      simp only [Obj.info]
      rw [p2]
    rw [e] at hd ⊢
    rw [List.append_cons, ← List.append_assoc] at hd
    rw [List.append_cons st.addrs, ← List.append_assoc (st.addrs ++ [m.addr])]
    have hd1 := (List.nodup_append.mp hd).1
    have hn1 : (names kids1).Nodup := by
      rw [List.map_append] at hn
      exact (List.nodup_append.mp hn).1
    unfold addObject
    rw [hN fuel (by omega) _ [] (st.addrs ++ [m.addr]) rfl hn1 hd1]
    simp only
    rw [hM fuel (by omega) kids1 _ hn hd]
  | none =>
    refine ⟨rfl, 0, fun fuel _ st _ _ => ?_⟩
    simp only [List.append_nil, allAddrs]
    exact .nil
  | @cons m ms o os h hs ih ihs =>
    obtain ⟨c1, c2, N1, hN1⟩ := ih
    obtain ⟨hl, N, hN⟩ := ihs
    refine ⟨by simp [hl], max N1 N, fun fuel hfuel st hn hd => ?_⟩
    have hd' : (st.addrs ++ addrsBelow o ++ allAddrs os).Nodup := by
      simpa [allAddrs] using hd
    have hn' : (names (st.kids ++ [o] ++ os)).Nodup := by simpa using hn
    have hd1 := (List.nodup_append.mp hd').1
    have hn1 : (names (st.kids ++ [o])).Nodup := by
      have := hn'
      unfold names at this ⊢
      rw [List.map_append] at this
      exact (List.nodup_append.mp this).1
    refine .cons (addMember_ok c1 c2 hn1 hd1 (hN1 fuel (by omega) st hd1)) ?_
    have := hN fuel (by omega) ⟨st.info, st.kids ++ [o], st.addrs ++ addrsBelow o⟩ hn' hd'
    simpa only [allAddrs, List.append_assoc, List.singleton_append] using this

end Verif.H5
