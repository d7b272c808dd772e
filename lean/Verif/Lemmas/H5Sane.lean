import Verif.Spec.H5Sane
import Verif.Lemmas.H5Object
/-!
The tree that the reader builds from any bytes: names of siblings are different, addresses are not
repeated, and something that holds of every header that was read holds of every object.
-/
namespace Verif.H5.Sane
open Verif.H5 Verif.H5.Fmt

theorem seekRun_ok {α : Type} {file : Bytes} {addr : Nat} {size : Int} {p : P α} {a : α}
    (h : seekRun file addr size p = .ok a) :
    ∃ s t, newSeek file addr size = .ok s ∧ p s = .ok (a, t) := by
  unfold seekRun at h
  split at h
  · cases h
  · cases h
  · rename_i s hs
    cases hp : p s with
    | err e => rw [hp] at h; cases h
    | panic => rw [hp] at h; cases h
    | ok r =>
      rw [hp] at h
      obtain ⟨b, t⟩ := r
      cases h
      exact ⟨s, t, hs, hp⟩

theorem allAddrs_append (xs ys : List Obj) : allAddrs (xs ++ ys) = allAddrs xs ++ allAddrs ys := by
  induction xs with
  | nil => rfl
  | cons x xs ih => simp only [List.cons_append, allAddrs, ih, List.append_assoc]

/-- What reading more of an object does. -/
structure Ext (p : Info → Prop) (st st' : St) : Prop where
  more : ∃ new, st'.kids = st.kids ++ new ∧ st'.addrs = st.addrs ++ allAddrs new ∧ ∀ k ∈ new, Sane p k
  addr : st'.info.addr = st.info.addr
  name : st'.info.name = st.info.name
  nodup : st.addrs.Nodup → st'.addrs.Nodup
  names : (st.kids.map (·.info.name)).Nodup → (st'.kids.map (·.info.name)).Nodup

theorem Ext.info {p : Info → Prop} (st : St) (i : Info) (h1 : i.addr = st.info.addr)
    (h2 : i.name = st.info.name) : Ext p st { st with info := i } where
  more := ⟨[], by simp, by simp [allAddrs], by simp⟩
  addr := h1
  name := h2
  nodup := id
  names := id

theorem Ext.refl {p : Info → Prop} (st : St) : Ext p st st := Ext.info st st.info rfl rfl

theorem Ext.trans {p : Info → Prop} {a b c : St} (h1 : Ext p a b) (h2 : Ext p b c) : Ext p a c where
  more := by
    obtain ⟨x, hx1, hx2, hx3⟩ := h1.more
    obtain ⟨y, hy1, hy2, hy3⟩ := h2.more
    refine ⟨x ++ y, by rw [hy1, hx1, List.append_assoc], by
      rw [hy2, hx2, allAddrs_append, List.append_assoc], ?_⟩
    intro k hk
    rcases List.mem_append.1 hk with hk | hk
    · exact hx3 k hk
    · exact hy3 k hk
  addr := h2.addr.trans h1.addr
  name := h2.name.trans h1.name
  nodup := h2.nodup ∘ h1.nodup
  names := h2.names ∘ h1.names

/-- What reading a heap does: an object does not become a group or stop being one, and its heaps stay
the same. -/
structure ExtD (p : Info → Prop) (st st' : St) : Prop extends Ext p st st' where
  grp : st'.info.isGroup = st.info.isGroup
  link : st'.info.link = st.info.link
  attr : st'.info.attr = st.info.attr

theorem ExtD.refl {p : Info → Prop} (st : St) : ExtD p st st := ⟨Ext.refl st, rfl, rfl, rfl⟩

theorem ExtD.trans {p : Info → Prop} {a b c : St} (h1 : ExtD p a b) (h2 : ExtD p b c) : ExtD p a c :=
  ⟨h1.toExt.trans h2.toExt, h2.grp.trans h1.grp, h2.link.trans h1.link, h2.attr.trans h1.attr⟩

/-- What a task does. -/
def TaskOK (p : Info → Prop) : Task → St → St → Prop
  | .header addr, st, st' =>
    Ext p { info := { st.info with addr := addr }, kids := [], addrs := st.addrs } st'
  | .dense, st, st' => ExtD p st st'
  | _, st, st' => Ext p st st'

/-- What holds of an object when its header and its heaps have been read. -/
def Made (p : Info → Prop) (w : Task → St → Res St) : Prop :=
  ∀ addr st c b d, w (.header addr) st = .ok c →
    dumpObject w { c with info := { c.info with isGroup := b } } = .ok d → p d.info

/-- The recursive calls do what they should. -/
structure Works (p : Info → Prop) (w : Task → St → Res St) : Prop where
  run : ∀ t st st', w t st = .ok st' → TaskOK p t st st'
  made : Made p w

variable {p : Info → Prop} {w : Task → St → Res St}

theorem dumpObject_ext (h : Works p w) {st st' : St} (hx : dumpObject w st = .ok st') :
    ExtD p st st' := by
  unfold dumpObject at hx
  split at hx
  · exact h.run _ _ _ hx
  · cases hx; exact ExtD.refl _

theorem addObject_ext (h : Works p w) {name : Bytes} {addr co : Nat} {g : Bool} {st st' : St}
    (h1 : ∀ k ∈ st.kids, k.info.name ≠ name) (h2 : addr ∉ st.addrs)
    (hx : addObject w name addr co g st = .ok st') : ExtD p st st' := by
  unfold addObject at hx
  split at hx
  · cases hx
  · cases hx
  · rename_i c hc
    split at hx
    · cases hx
    · cases hx
    · rename_i d hd
      cases hx
      have e1 := h.run _ _ _ hc
      have hp := h.made _ _ _ c.info.isGroup _ hc hd
      have e := e1.trans (dumpObject_ext h hd).toExt
      obtain ⟨new, n1, n2, n3⟩ := e.more
      simp only [List.nil_append] at n1
      refine ⟨⟨⟨[.mk d.info d.kids], rfl, ?_, ?_⟩, rfl, rfl, fun hn => ?_, fun hn => ?_⟩, rfl, rfl, rfl⟩
      · simp only [n2, allAddrs, addrsBelow, n1, e.addr, List.append_nil, List.append_assoc,
          List.singleton_append]
      · intro k hk
        rw [List.mem_singleton] at hk
        subst hk
        refine .mk _ _ (e.names List.nodup_nil) hp ?_
        rw [n1]
        exact n3
      · refine e.nodup ?_
        rw [List.nodup_append]
        refine ⟨hn, by simp, ?_⟩
        intro a ha b hb
        rw [List.mem_singleton] at hb
        subst hb
        exact fun he => h2 (he ▸ ha)
      · rw [List.map_append, List.nodup_append]
        refine ⟨hn, by simp, ?_⟩
        intro a ha b hb
        obtain ⟨k, hk, rfl⟩ := List.mem_map.1 ha
        simp only [List.map_cons, List.map_nil, List.mem_singleton] at hb
        subst hb
        have := e.name
        simp only at this
        rw [Obj.info.eq_1 d.info d.kids, this]
        exact h1 k hk

theorem any_name {kids : List Obj} {name : Bytes}
    (h : ¬ (kids.any fun k => k.info.name == name) = true) : ∀ k ∈ kids, k.info.name ≠ name := by
  intro k hk e
  exact h (List.any_eq_true.2 ⟨k, hk, by simp [e]⟩)

theorem addLink_ext (h : Works p w) {name : Bytes} {addr co : Nat} {st st' : St}
    (hx : addLink w name addr co st = .ok st') : ExtD p st st' := by
  unfold addLink at hx
  split at hx
  · cases hx
  · rename_i h1
    split at hx
    · cases hx; exact ExtD.refl _
    · rename_i h2
      exact addObject_ext h (any_name h1) (by simpa using h2) hx

theorem setLayout_addr (i : Info) (l : Layout) : (setLayout i l).addr = i.addr := by
  unfold setLayout
  split <;> rfl

theorem setLayout_name (i : Info) (l : Layout) : (setLayout i l).name = i.name := by
  unfold setLayout
  split <;> rfl

theorem P.pure_ok {α : Type} {a b : α} {s t : S} (h : (pure a : P α) s = .ok (b, t)) : b = a := by
  rw [P.pure_apply] at h
  cases h
  rfl

theorem P.fail_ok {α : Type} {e : Err} {s : S} {x : α × S} (h : (P.fail e : P α) s = .ok x) : False := by
  cases h

theorem ite_ok {α : Type} {c : Prop} [Decidable c] {a b : P α} {s : S} {x : α × S}
    (h : (if c then a else b) s = .ok x) : a s = .ok x ∨ b s = .ok x := by
  split at h
  · exact .inl h
  · exact .inr h

theorem handle_ext (h : Works p w) (version flags ty size : Nat) {st st' : St} {s t : S}
    (hx : handle w version flags ty size st s = .ok (st', t)) : Ext p st st' := by
  unfold handle at hx
  rcases ite_ok hx with hx | hx
  · obtain ⟨_, _, _, h2⟩ := P.bind_ok hx
    rw [P.pure_ok h2]; exact Ext.refl _
  rcases ite_ok hx with hx | hx
  · obtain ⟨_, _, _, h2⟩ := P.bind_ok hx
    rw [P.pure_ok h2]; exact Ext.info _ _ rfl rfl
  rcases ite_ok hx with hx | hx
  · obtain ⟨_, _, _, h2⟩ := P.bind_ok hx
    obtain ⟨_, _, _, h2⟩ := P.bind_ok h2
    rw [P.pure_ok h2]; exact Ext.info _ _ rfl rfl
  rcases ite_ok hx with hx | hx
  · obtain ⟨_, _, _, h2⟩ := P.bind_ok hx
    obtain ⟨_, _, _, h2⟩ := P.bind_ok h2
    rw [P.pure_ok h2]; exact Ext.info _ _ rfl rfl
  rcases ite_ok hx with hx | hx
  · obtain ⟨_, _, _, h2⟩ := P.bind_ok hx
    obtain ⟨_, _, _, h2⟩ := P.bind_ok h2
    rw [P.pure_ok h2]; exact Ext.info _ _ rfl rfl
  rcases ite_ok hx with hx | hx
  · obtain ⟨_, _, _, h2⟩ := P.bind_ok hx
    rw [P.pure_ok h2]; exact Ext.info _ _ rfl rfl
  rcases ite_ok hx with hx | hx
  · obtain ⟨⟨name, addr, co⟩, _, _, h2⟩ := P.bind_ok hx
    exact (addLink_ext h (P.lift_ok h2).1).toExt
  rcases ite_ok hx with hx | hx
  · cases hx
  rcases ite_ok hx with hx | hx
  · obtain ⟨l, _, _, h2⟩ := P.bind_ok hx
    rw [P.pure_ok h2]
    exact Ext.info _ _ (setLayout_addr _ _) (setLayout_name _ _)
  rcases ite_ok hx with hx | hx
  · obtain ⟨_, _, _, h2⟩ := P.bind_ok hx
    obtain ⟨_, _, _, h2⟩ := P.bind_ok h2
    rw [P.pure_ok h2]; exact Ext.refl _
  rcases ite_ok hx with hx | hx
  · obtain ⟨_, _, _, h2⟩ := P.bind_ok hx
    rw [P.pure_ok h2]; exact Ext.info _ _ rfl rfl
  rcases ite_ok hx with hx | hx
  · obtain ⟨_, _, _, h2⟩ := P.bind_ok hx
    rw [P.pure_ok h2]; exact Ext.info _ _ rfl rfl
  rcases ite_ok hx with hx | hx
  · obtain ⟨_, _, _, h2⟩ := P.bind_ok hx
    rw [P.pure_ok h2]; exact Ext.info _ _ rfl rfl
  rcases ite_ok hx with hx | hx
  · obtain ⟨_, _, _, h2⟩ := P.bind_ok hx
    rw [P.pure_ok h2]; exact Ext.refl _
  rcases ite_ok hx with hx | hx
  · obtain ⟨_, _, _, h2⟩ := P.bind_ok hx
    obtain ⟨_, _, _, h2⟩ := P.bind_ok h2
    rw [P.pure_ok h2]; exact Ext.refl _
  rcases ite_ok hx with hx | hx
  · obtain ⟨_, _, _, h2⟩ := P.bind_ok hx
    obtain ⟨_, _, _, h2⟩ := P.bind_ok h2
    exact h.run _ _ _ (P.lift_ok h2).1
  rcases ite_ok hx with hx | hx
  · obtain ⟨_, _, _, h2⟩ := P.bind_ok hx
    obtain ⟨_, _, _, h2⟩ := P.bind_ok h2
    exact (Ext.info st { st.info with isGroup := true } rfl rfl).trans (h.run _ _ _ (P.lift_ok h2).1)
  rcases ite_ok hx with hx | hx
  · obtain ⟨_, _, _, h2⟩ := P.bind_ok hx
    obtain ⟨_, _, _, h2⟩ := P.bind_ok h2
    obtain ⟨_, _, _, h2⟩ := P.bind_ok h2
    obtain ⟨_, _, _, h2⟩ := P.bind_ok h2
    obtain ⟨_, _, _, h2⟩ := P.bind_ok h2
    obtain ⟨_, _, _, h2⟩ := P.bind_ok h2
    obtain ⟨_, _, _, h2⟩ := P.bind_ok h2
    obtain ⟨_, _, _, h2⟩ := P.bind_ok h2
    rw [P.pure_ok h2]; exact Ext.refl _
  rcases ite_ok hx with hx | hx
  · cases hx
  rcases ite_ok hx with hx | hx
  · obtain ⟨_, _, _, h2⟩ := P.bind_ok hx
    obtain ⟨_, _, _, h2⟩ := P.bind_ok h2
    rw [P.pure_ok h2]; exact Ext.info _ _ rfl rfl
  rcases ite_ok hx with hx | hx
  · obtain ⟨_, _, _, h2⟩ := P.bind_ok hx
    obtain ⟨_, _, _, h2⟩ := P.bind_ok h2
    obtain ⟨_, _, _, h2⟩ := P.bind_ok h2
    rw [P.pure_ok h2]; exact Ext.refl _
  · cases hx

theorem sub_ok {α : Type} {n : Nat} {q : P α} {s : S} {a : α} {t : S} (h : sub n q s = .ok (a, t)) :
    ∃ s' t', q s' = .ok (a, t') := by
  unfold sub at h
  split at h
  · rename_i b u hb
    cases h
    exact ⟨_, _, hb⟩
  · cases h
  · cases h

theorem msgSub_ok {α : Type} {v n : Nat} {q : P α} {s : S} {a : α} {t : S}
    (h : msgSub v n q s = .ok (a, t)) : ∃ s' t', q s' = .ok (a, t') := by
  unfold msgSub at h
  split at h
  · split at h
    · rename_i b u hb
      split at h
      · cases h; exact ⟨_, _, hb⟩
      · cases h
    · cases h
    · cases h
  · exact sub_ok h

theorem msgLoop_ext (h : Works p w) (version flags C fuel : Nat) {st st' : St} {s t : S}
    (hx : msgLoop w version flags C fuel st s = .ok (st', t)) : Ext p st st' := by
  induction fuel generalizing st s with
  | zero => cases hx
  | succ fuel ih =>
    unfold msgLoop at hx
    obtain ⟨r, _, _, h2⟩ := P.bind_ok hx
    simp only at h2
    split at h2
    · obtain ⟨_, _, _, h2⟩ := P.bind_ok h2
      rw [P.pure_ok h2]; exact Ext.refl _
    · obtain ⟨hd, u, h3, h4⟩ := P.bind_ok h2
      cases hd with
      | next => exact ih h4
      | stop =>
        simp only at h4
        obtain ⟨_, _, _, h2⟩ := P.bind_ok h4
        obtain ⟨_, _, _, h2⟩ := P.bind_ok h2
        rw [P.pure_ok h2]; exact Ext.refl _
      | msg ty size =>
        simp only at h4
        obtain ⟨st1, v, h5, h6⟩ := P.bind_ok h4
        obtain ⟨s', t', h7⟩ := msgSub_ok h5
        exact (handle_ext h _ _ _ _ h7).trans (ih h6)

theorem readCommon_ext (h : Works p w) (version flags C : Nat) {st st' : St} {s t : S}
    (hx : readCommon w version flags C st s = .ok (st', t)) : Ext p st st' := by
  obtain ⟨s', t', h1⟩ := sub_ok hx
  obtain ⟨_, _, _, h2⟩ := P.bind_ok h1
  exact msgLoop_ext h _ _ _ _ h2

theorem readCont_ext (h : Works p w) (file : Bytes) (offset size version flags : Nat) {st st' : St}
    (hx : readCont w file offset size version flags st = .ok st') : Ext p st st' := by
  unfold readCont at hx
  split at hx
  · cases hx
  · cases hx
  · rename_i s hs
    split at hx
    · cases hx
    · cases hx
    · rename_i st1 t ht
      have he : st' = st1 := by
        split at hx
        · split at hx
          · cases hx
          · cases hc : checkChecksum file offset (size - 4) with
            | ok _ => rw [hc] at hx; cases hx; rfl
            | err e => rw [hc] at hx; cases hx
            | panic => rw [hc] at hx; cases hx
        · cases hx; rfl
      subst he
      by_cases hv : 1 < version
      · simp only [hv, ↓reduceIte] at ht
        obtain ⟨_, _, _, h2⟩ := P.bind_ok ht
        obtain ⟨st2, _, h3, h4⟩ := P.bind_ok h2
        obtain ⟨_, _, _, h5⟩ := P.bind_ok h4
        obtain ⟨_, _, _, h5⟩ := P.bind_ok h5
        obtain ⟨_, _, _, h5⟩ := P.bind_ok h5
        rw [P.pure_ok h5]
        exact readCommon_ext h _ _ _ h3
      · simp only [hv, ↓reduceIte] at ht
        obtain ⟨st2, _, h3, h4⟩ := P.bind_ok ht
        rw [P.pure_ok h4]
        exact readCommon_ext h _ _ _ h3

/-! ### Symbol tables and dense storage -/

theorem symLoop_ext (h : Works p w) (file : Bytes) (heap n : Nat) {st st' : St} {s t : S}
    (hx : symLoop w file heap n st s = .ok (st', t)) : Ext p st st' := by
  induction n generalizing st s with
  | zero => rw [P.pure_ok hx]; exact Ext.refl _
  | succ n ih =>
    unfold symLoop at hx
    obtain ⟨⟨name, addr⟩, _, _, h2⟩ := P.bind_ok hx
    simp only at h2
    split at h2
    · cases h2
    · rename_i h1
      split at h2
      · rw [P.pure_ok h2]; exact Ext.refl _
      · rename_i h3
        obtain ⟨st1, _, h4, h5⟩ := P.bind_ok h2
        exact (addObject_ext h (any_name h1) (by simpa using h3) (P.lift_ok h4).1).toExt.trans (ih h5)

theorem readSymLeaves_ext (h : Works p w) (file : Bytes) (heap : Nat) (as : List Nat) {st st' : St}
    (hx : readSymLeaves w file heap as st = .ok st') : Ext p st st' := by
  induction as generalizing st with
  | nil => cases hx; exact Ext.refl _
  | cons a as ih =>
    unfold readSymLeaves at hx
    rw [Res.bind_eq_ok] at hx
    obtain ⟨st1, h1, h2⟩ := hx
    refine Ext.trans ?_ (ih h2)
    unfold readSymLeaf at h1
    rw [Res.bind_eq_ok] at h1
    obtain ⟨n, _, h3⟩ := h1
    obtain ⟨_, _, _, h4⟩ := seekRun_ok h3
    exact symLoop_ext h _ _ _ h4

theorem readSymTable_ext (h : Works p w) (file : Bytes) (btree heap : Nat) {st st' : St}
    (hx : readSymTable w file btree heap st = .ok st') : Ext p st st' := by
  unfold readSymTable at hx
  rw [Res.bind_eq_ok] at hx
  obtain ⟨as, _, h2⟩ := hx
  exact readSymLeaves_ext h _ _ _ h2

theorem readRecord_ext (h : Works p w) (file : Bytes) (d : Dense) (ty : Nat) {st st' : St} {s t : S}
    (hx : readRecord w file d ty st s = .ok (st', t)) : ExtD p st st' := by
  unfold readRecord at hx
  split at hx
  · obtain ⟨_, _, _, h2⟩ := P.bind_ok hx
    obtain ⟨_, _, _, h2⟩ := P.bind_ok h2
    obtain ⟨_, _, _, h2⟩ := P.bind_ok h2
    obtain ⟨_, _, _, h2⟩ := P.bind_ok h2
    obtain ⟨_, _, _, h2⟩ := P.bind_ok h2
    have h3 := (P.lift_ok h2).1
    split at h3
    · cases h3
    · rw [Res.bind_eq_ok] at h3
      obtain ⟨⟨a, o⟩, _, h4⟩ := h3
      simp only [readLinkAt] at h4
      rw [Res.bind_eq_ok] at h4
      obtain ⟨⟨name, addr, co⟩, _, h5⟩ := h4
      exact addLink_ext h h5
  · split at hx
    · cases hx
    · split at hx
      · obtain ⟨_, _, _, h2⟩ := P.bind_ok hx
        obtain ⟨_, _, _, h2⟩ := P.bind_ok h2
        obtain ⟨_, _, _, h2⟩ := P.bind_ok h2
        obtain ⟨_, _, _, h2⟩ := P.bind_ok h2
        obtain ⟨_, _, _, h2⟩ := P.bind_ok h2
        obtain ⟨_, _, _, h2⟩ := P.bind_ok h2
        obtain ⟨_, _, _, h2⟩ := P.bind_ok h2
        obtain ⟨_, _, _, h2⟩ := P.bind_ok h2
        have h3 := (P.lift_ok h2).1
        split at h3
        · cases h3
        · rw [Res.bind_eq_ok] at h3
          obtain ⟨⟨a, o⟩, _, h4⟩ := h3
          simp only [readAttrAt] at h4
          rw [Res.bind_eq_ok] at h4
          obtain ⟨at', _, h5⟩ := h4
          cases h5
          exact ⟨Ext.info _ _ rfl rfl, rfl, rfl, rfl⟩
      · cases hx

theorem readRecords_ext (h : Works p w) (file : Bytes) (d : Dense) (ty n : Nat) {st st' : St} {s t : S}
    (hx : readRecords w file d ty n st s = .ok (st', t)) : ExtD p st st' := by
  induction n generalizing st s with
  | zero => rw [P.pure_ok hx]; exact ExtD.refl _
  | succ n ih =>
    unfold readRecords at hx
    obtain ⟨st1, _, h1, h2⟩ := P.bind_ok hx
    exact (readRecord_ext h _ _ _ h1).trans (ih h2)

theorem childLoop_ext {c : Nat → Nat → St → Res St}
    (h : ∀ a n st st', c a n st = .ok st' → ExtD p st st') (few deep : Bool) (n : Nat) {st st' : St}
    {s t : S} (hx : childLoop c few deep n st s = .ok (st', t)) : ExtD p st st' := by
  induction n generalizing st s with
  | zero => rw [P.pure_ok hx]; exact ExtD.refl _
  | succ n ih =>
    unfold childLoop at hx
    obtain ⟨_, _, _, h2⟩ := P.bind_ok hx
    obtain ⟨_, _, _, h2⟩ := P.bind_ok h2
    obtain ⟨_, _, _, h2⟩ := P.bind_ok h2
    obtain ⟨st1, _, h3, h2⟩ := P.bind_ok h2
    obtain ⟨_, _, _, h2⟩ := P.bind_ok h2
    exact (h _ _ _ _ (P.lift_ok h3).1).trans (ih h2)

theorem readNode_ext (h : Works p w) (file : Bytes) (d : Dense) (nodeSize recordSize depth : Nat) :
    ∀ (addr n : Nat) (st st' : St),
      readNode w file d nodeSize recordSize depth addr n st = .ok st' → ExtD p st st' := by
  induction depth with
  | zero =>
    intro addr n st st' hx
    unfold readNode readLeafNode at hx
    simp only at hx
    rw [Res.bind_eq_ok] at hx
    obtain ⟨st1, h1, h2⟩ := hx
    rw [Res.bind_eq_ok] at h2
    obtain ⟨_, _, h2⟩ := h2
    cases h2
    obtain ⟨_, _, _, h3⟩ := seekRun_ok h1
    obtain ⟨_, _, _, h3⟩ := P.bind_ok h3
    obtain ⟨_, _, _, h3⟩ := P.bind_ok h3
    obtain ⟨_, _, _, h3⟩ := P.bind_ok h3
    exact readRecords_ext h _ _ _ _ h3
  | succ depth ih =>
    intro addr n st st' hx
    unfold readNode at hx
    simp only at hx
    rw [Res.bind_eq_ok] at hx
    obtain ⟨st1, h1, h2⟩ := hx
    rw [Res.bind_eq_ok] at h2
    obtain ⟨_, _, h2⟩ := h2
    cases h2
    obtain ⟨_, _, _, h3⟩ := seekRun_ok h1
    obtain ⟨_, _, _, h3⟩ := P.bind_ok h3
    obtain ⟨_, _, _, h3⟩ := P.bind_ok h3
    obtain ⟨_, _, _, h3⟩ := P.bind_ok h3
    obtain ⟨_, _, _, h3⟩ := P.bind_ok h3
    obtain ⟨_, _, h4, h5⟩ := P.bind_ok h3
    exact (readRecords_ext h _ _ _ _ h4).trans (childLoop_ext ih _ _ _ h5)

theorem readBTree2_ext (h : Works p w) (file : Bytes) (d : Dense) (addr : Nat) {st st' : St}
    (hx : readBTree2 w file d addr st = .ok st') : ExtD p st st' := by
  unfold readBTree2 at hx
  rw [Res.bind_eq_ok] at hx
  obtain ⟨⟨a, b, c, e, f, g⟩, _, h2⟩ := hx
  simp only at h2
  rw [Res.bind_eq_ok] at h2
  obtain ⟨_, _, h3⟩ := h2
  exact readNode_ext h _ _ _ _ _ _ _ _ _ h3

theorem readDense_ext (h : Works p w) (file : Bytes) (n : Nat) {st st' : St}
    (hx : readDense w file n st = .ok st') : ExtD p st st' := by
  unfold readDense at hx
  rw [Res.bind_eq_ok] at hx
  obtain ⟨⟨st1, ha⟩, h1, h2⟩ := hx
  refine ExtD.trans (b := st1) ?_ ?_
  · unfold readDenseAttrs at h1
    split at h1
    · cases h1; exact ExtD.refl _
    · split at h1
      · rw [Res.bind_eq_ok] at h1
        obtain ⟨hi, _, h3⟩ := h1
        rw [Res.bind_eq_ok] at h3
        obtain ⟨st2, h4, h5⟩ := h3
        cases h5
        exact readBTree2_ext h _ _ _ h4
      · cases h1; exact ExtD.refl _
  · simp only [readDenseLinks] at h2
    split at h2
    · cases h2; exact ExtD.refl _
    · split at h2
      · rw [Res.bind_eq_ok] at h2
        obtain ⟨hi, _, h3⟩ := h2
        exact readBTree2_ext h _ _ _ h3
      · cases h2; exact ExtD.refl _

/-! ### Headers -/

/-- A version 2 header was read: its flags, the size of its messages, the messages and its checksum. -/
structure ReadV2 (w : Task → St → Res St) (file : Bytes) (addr : Nat) : Prop where
  ok : ∃ flags chunk a b : Nat,
    seekRun file addr 6 (do
      checkMagic 4 ohdr
      let version ← read8
      checkVal 2 version
      let flags ← read8
      P.assert (decide (flags < 64)) .assertFail
      pure flags) = .ok flags ∧
    a = addr + 6 + (if flags / 32 % 2 = 1 then 16 else 0) + (if flags / 16 % 2 = 1 then 4 else 0) ∧
    seekRun file a ((2 ^ (flags % 4) : Nat) : Int) (readEnc (2 ^ (flags % 4))) = .ok chunk ∧
    b = a + 2 ^ (flags % 4) + chunk - addr ∧ checkChecksum file addr b = .ok () ∧
    ∃ st st', seekRun file (a + 2 ^ (flags % 4)) (i64 chunk) (readCommon w 2 flags chunk st) = .ok st'

theorem readHeaderV2_ext (h : Works p w) (file : Bytes) (addr : Nat) {st st' : St}
    (hx : readHeaderV2 w file addr st = .ok st') :
    Ext p { info := { st.info with addr := addr }, kids := [], addrs := st.addrs } st' ∧
      ReadV2 w file addr := by
  have key : ∀ a flags chunk,
      (seekRun file a (i64 chunk) (readCommon w 2 flags chunk
        { info := { st.info with addr := addr }, kids := [], addrs := st.addrs }) >>= fun st' =>
          checkChecksum file addr (a + chunk - addr) >>= fun _ => pure st') = .ok st' →
      Ext p { info := { st.info with addr := addr }, kids := [], addrs := st.addrs } st' ∧
        checkChecksum file addr (a + chunk - addr) = .ok () ∧
        ∃ st st', seekRun file a (i64 chunk) (readCommon w 2 flags chunk st) = .ok st' := by
    intro a flags chunk hk
    rw [Res.bind_eq_ok] at hk
    obtain ⟨st1, h5, h6⟩ := hk
    rw [Res.bind_eq_ok] at h6
    obtain ⟨u, h7, h8⟩ := h6
    cases h8
    obtain ⟨_, _, _, h9⟩ := seekRun_ok h5
    exact ⟨readCommon_ext h _ _ _ h9, h7, _, _, h5⟩
  unfold readHeaderV2 at hx
  rw [Res.bind_eq_ok] at hx
  obtain ⟨flags, hfl, hf⟩ := hx
  by_cases c1 : flags / 32 % 2 = 1 <;> by_cases c2 : flags / 16 % 2 = 1 <;>
    simp only [c1, c2, ↓reduceIte] at hf
  · rw [Res.bind_eq_ok] at hf
    obtain ⟨_, _, hf⟩ := hf
    rw [Res.bind_eq_ok] at hf
    obtain ⟨_, _, hf⟩ := hf
    rw [Res.bind_eq_ok] at hf
    obtain ⟨chunk, h3, hf⟩ := hf
    obtain ⟨k1, k2⟩ := key _ _ _ hf
    exact ⟨k1, ⟨flags, chunk, _, _, hfl, by simp only [c1, c2, ↓reduceIte], h3, rfl, k2⟩⟩
  · rw [Res.bind_eq_ok] at hf
    obtain ⟨_, _, hf⟩ := hf
    rw [Res.bind_eq_ok] at hf
    obtain ⟨chunk, h3, hf⟩ := hf
    obtain ⟨k1, k2⟩ := key _ _ _ hf
    exact ⟨k1, ⟨flags, chunk, _, _, hfl, by simp only [c1, c2, ↓reduceIte], h3, rfl, k2⟩⟩
  · rw [Res.bind_eq_ok] at hf
    obtain ⟨_, _, hf⟩ := hf
    rw [Res.bind_eq_ok] at hf
    obtain ⟨chunk, h3, hf⟩ := hf
    obtain ⟨k1, k2⟩ := key _ _ _ hf
    exact ⟨k1, ⟨flags, chunk, _, _, hfl, by simp only [c1, c2, ↓reduceIte], h3, rfl, k2⟩⟩
  · rw [Res.bind_eq_ok] at hf
    obtain ⟨chunk, h3, hf⟩ := hf
    obtain ⟨k1, k2⟩ := key _ _ _ hf
    exact ⟨k1, ⟨flags, chunk, _, _, hfl, by simp only [c1, c2, ↓reduceIte], h3, rfl, k2⟩⟩

theorem readHeaderV1_ext (h : Works p w) (file : Bytes) (addr : Nat) {st st' : St}
    (hx : readHeaderV1 w file addr st = .ok st') :
    Ext p { info := { st.info with addr := addr }, kids := [], addrs := st.addrs } st' := by
  unfold readHeaderV1 at hx
  simp only at hx
  rw [Res.bind_eq_ok] at hx
  obtain ⟨⟨v, size⟩, _, h2⟩ := hx
  obtain ⟨_, _, _, h3⟩ := seekRun_ok h2
  exact readCommon_ext h _ _ _ h3

theorem walk_works (file : Bytes) (hm : ∀ n, Made p (walk file n)) (n : Nat) : Works p (walk file n) := by
  induction n with
  | zero => exact ⟨fun t st st' hx => (by cases hx), hm 0⟩
  | succ n ih =>
    refine ⟨?_, hm (n + 1)⟩
    intro t st st' hx
    cases t with
    | header addr =>
      simp only [walk] at hx
      cases hm : isMagic file ohdr addr with
      | err e => rw [hm] at hx; cases hx
      | panic => rw [hm] at hx; cases hx
      | ok b =>
        rw [hm] at hx
        cases b with
        | true => exact (readHeaderV2_ext ih _ _ hx).1
        | false => exact readHeaderV1_ext ih _ _ hx
    | cont a b c d => exact readCont_ext ih _ _ _ _ _ hx
    | symtab a b => exact readSymTable_ext ih _ _ _ hx
    | dense => exact readDense_ext ih _ _ hx

theorem walk_true (file : Bytes) (n : Nat) : Works (fun _ => True) (walk file n) :=
  walk_works file (fun _ _ _ _ _ _ _ _ => trivial) n

/-- The reader read this object: its header and its heaps. -/
def Walked (file : Bytes) (i : Info) : Prop :=
  ∃ n st c b d, walk file n (.header i.addr) st = .ok c ∧
    dumpObject (walk file n) { c with info := { c.info with isGroup := b } } = .ok d ∧ d.info = i

theorem walk_walked (file : Bytes) (n : Nat) : Works (Walked file) (walk file n) := by
  refine walk_works file (fun n addr st c b d h1 h2 => ⟨n, st, c, b, d, ?_, h2, rfl⟩) n
  have e1 := ((walk_true file n).run _ _ _ h1).addr
  have e2 := (dumpObject_ext (walk_true file n) h2).addr
  simp only at e1 e2
  rw [e2, e1]
  exact h1

/-- Every tree that the reader builds. -/
theorem openN_works (file : Bytes) (n : Nat) (W : Works p (walk file n)) {o : Obj}
    (h : openN n file = .ok o) :
    Sane p o ∧ (allAddrs o.kids).Nodup ∧ o.info.isGroup = true ∧
      ∃ ext, readSuperblock file = .ok (o.info.addr, ext) := by
  unfold openN at h
  rw [Res.bind_eq_ok] at h
  obtain ⟨⟨root, ext⟩, h0, h1⟩ := h
  simp only at h1
  have key : ∀ a : List Nat, a.Nodup → (if root = invalidAddress then Res.err .assertFail
      else do
        let st ← walk file n (.header root) { addrs := a }
        let st ← dumpObject (walk file n) { st with info := { st.info with isGroup := true } }
        pure (Obj.mk st.info st.kids)) = .ok o → Sane p o ∧ (allAddrs o.kids).Nodup ∧
          o.info.isGroup = true ∧ ∃ ext, readSuperblock file = .ok (o.info.addr, ext) := by
    intro a hnd h2
    split at h2
    · cases h2
    · rw [Res.bind_eq_ok] at h2
      obtain ⟨st, h3, h4⟩ := h2
      rw [Res.bind_eq_ok] at h4
      obtain ⟨st', h5, h6⟩ := h4
      cases h6
      have e1 := W.run _ _ _ h3
      have e2 := (dumpObject_ext W h5)
      have e := (e1.trans (Ext.info st { st.info with isGroup := true } rfl rfl)).trans e2.toExt
      obtain ⟨new, n1, n2, n3⟩ := e.more
      simp only [List.nil_append] at n1
      refine ⟨.mk _ _ (e.names List.nodup_nil) (W.made _ _ _ _ _ h3 h5) (n1 ▸ n3), ?_, ?_, ext, ?_⟩
      · have := e.nodup hnd
        rw [n2, List.nodup_append] at this
        rw [Obj.kids, n1]
        exact this.2.1
      · exact e2.grp
      · rw [Obj.info, e.addr]; exact h0
  split at h1
  · rw [Res.bind_eq_ok] at h1
    obtain ⟨a, ha, h2⟩ := h1
    refine key a ?_ h2
    cases hw : walk file n (.header ext) {} with
    | err e => rw [hw] at ha; cases ha
    | panic => rw [hw] at ha; cases ha
    | ok st =>
      rw [hw] at ha
      cases ha
      exact (W.run _ _ _ hw).nodup List.nodup_nil
  · exact key [] List.nodup_nil h1

theorem openN_sane (file : Bytes) (n : Nat) {o : Obj} (h : openN n file = .ok o) :
    Sane (Walked file) o ∧ (allAddrs o.kids).Nodup ∧ o.info.isGroup = true ∧
      ∃ ext, readSuperblock file = .ok (o.info.addr, ext) :=
  openN_works file n (walk_walked file n) h

end Verif.H5.Sane
