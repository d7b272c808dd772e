import Verif.Lemmas.H5Stored
/-!
What `Stored` says, in terms of the format alone.
-/
namespace Verif.H5
open Fmt (Message Holds)

/-- Messages of the format with no flags and no creation order. -/
def bare (ms : List Message) : List (Nat × Nat × Message) := ms.map fun m => (0, 0, m)

theorem asMsg_enc (m : Message) : (asMsg m).enc = Fmt.frame2 none 0 m := by
  simp only [Msg.enc, asMsg, Fmt.frame2, Fmt.num, leEnc1, Option.map_none, Option.getD_none, List.append_nil]
  rfl

theorem frames2_bare (ms : List Message) : Fmt.frames2 false (bare ms) = (ms.map asMsg).flatMap Msg.enc := by
  induction ms with
  | nil => rfl
  | cons m ms ih =>
    simp only [Fmt.frames2, bare, List.map_cons, List.flatMap_cons] at ih ⊢
    rw [ih, asMsg_enc]
    rfl

/-- The padding is nothing or a null message. -/
theorem nilPad_form (n : Nat) : ∃ ps : List Message, nilPad n = (ps.map asMsg).flatMap Msg.enc ∧
    (∀ m ∈ ps, m.OK) ∧ (∀ m ∈ ps, m.bytes.length < 65536) ∧ ∀ i, Does ps i i := by
  by_cases h : n % 8 = 0
  · exact ⟨[], by simp [nilPad, h], by simp, by simp, fun i => .nil i⟩
  · obtain ⟨k, hk, hk2⟩ : ∃ k, nilPad n = Msg.enc ⟨0, List.replicate k 0⟩ ∧ k < 8 := by
      refine ⟨(if 8 - n % 8 < 4 then 8 - n % 8 + 8 else 8 - n % 8) - 4, ?_, ?_⟩
      · simp [nilPad, h, Msg.enc]
      · split <;> omega
    refine ⟨[.nil (List.replicate k 0)], by simp [hk, asMsg, Message.ty, Message.bytes], by simp [Message.OK],
      by simp [Message.bytes]; omega, fun i => .cons rfl trivial (.nil i)⟩

/-- The optional parts of the headers of the writer. -/
def plainHead : Fmt.Head2 := ⟨2, false, false, none, none, 0⟩

theorem headerBody_form (ms ps : List Message)
    (hp : nilPad ((ms.map asMsg).flatMap Msg.enc).length = (ps.map asMsg).flatMap Msg.enc) :
    Fmt.header2Body plainHead (bare (ms ++ ps)) = headerBody (ms.map asMsg) := by
  have hb : msgBlock (ms.map asMsg) = Fmt.frames2 false (bare (ms ++ ps)) := by
    rw [frames2_bare, List.map_append, List.flatMap_append, ← hp]
    rfl
  rw [headerBody, hb]
  simp only [Fmt.header2Body, plainHead, Fmt.Head2.flags, Fmt.num, leEnc1, Option.getD_none, List.append_nil,
    Nat.add_zero, List.replicate_zero, Option.isSome_none, Fmt.bit, Bool.false_eq_true, if_false]
  rfl

theorem header2_form (ms ps : List Message) (hdr : Bytes)
    (hp : nilPad ((ms.map asMsg).flatMap Msg.enc).length = (ps.map asMsg).flatMap Msg.enc)
    (hs : (msgBlock (ms.map asMsg)).length + 10 < 2 ^ 32) (ho : objectHeader (ms.map asMsg) = .ok hdr) :
    Fmt.header2 plainHead (bare (ms ++ ps)) = hdr := by
  obtain ⟨sum, h1, h2⟩ := checksum_lookup3 (headerBody (ms.map asMsg)) (by rw [headerBody_length]; omega)
  simp only [objectHeader, h1, Res.bind_ok, Res.pure_eq, Res.ok.injEq] at ho
  rw [Fmt.header2, headerBody_form ms ps hp, ← ho, ← h2]
  rfl

/-! ### Messages -/

theorem Does.holds {file : Bytes} {v fl : Nat} {ms rest : List Message} {i j k : Info} {kids : List Obj}
    (h : Does ms i j) (hr : Holds file (.messages v fl rest j k kids)) :
    Holds file (.messages v fl (ms ++ rest) i k kids) := by
  induction h with
  | nil i => exact hr
  | cons hp ha _ ih => exact .plain hp ha (ih hr)

/-- The links to the children, as messages of the format. -/
def linkForms (kids : List Obj) : List Message := kids.map fun k => .link 0 false none none k.info.name k.info.addr

theorem linkForms_msgs (kids : List Obj) : (linkForms kids).map asMsg = linkMsgs kids := by
  simp only [linkForms, linkMsgs, List.map_map]
  apply List.map_congr_left
  intro k _
  simp only [Function.comp_apply, asMsg, Message.ty, Message.bytes, link_form]

theorem links_hold {file : Bytes} {v fl : Nat} {rest : List Message} {i j : Info} {kids : List Obj}
    (hk : ∀ k ∈ kids, Holds file (.object ⟨k.info.name, k.info.addr, 0, false⟩ k))
    (hr : Holds file (.messages v fl rest i j [])) :
    Holds file (.messages v fl (linkForms kids ++ rest) i j kids) := by
  induction kids with
  | nil => exact hr
  | cons k ks ih => exact .link (hk k (by simp)) (ih fun x hx => hk x (by simp [hx]))

theorem no_attrs {file : Bytes} {p : Option (Nat × Nat)} (h : hasHeap p = false) : Fmt.AttrsOf file p [] := by
  rcases p with _ | ⟨x, y⟩
  · rfl
  · simp only [hasHeap, bne_eq_false_iff_eq] at h
    simp only [Fmt.AttrsOf]
    rw [if_pos (by rw [h]; rfl)]
    trivial

theorem no_links {file : Bytes} {p : Option (Nat × Nat)} (h : hasHeap p = false) : Fmt.LinksOf file p [] := by
  rcases p with _ | ⟨x, y⟩
  · rfl
  · simp only [hasHeap, bne_eq_false_iff_eq] at h
    simp only [Fmt.LinksOf]
    rw [if_pos (by rw [h]; rfl)]
    trivial

/-- The header of a stored object. -/
theorem Stored.holds {file : Bytes} {o : Obj} (h : Stored file o) :
    Holds file (.header o.info.addr { name := o.info.name, addr := o.info.addr } o.info o.kids) ∧
      Holds file (.object ⟨o.info.name, o.info.addr, 0, false⟩ o) := by
  induction h with
  | mk i kids pre post hdr mid h1 h2 h3 h4 h5 h6 h7 h8 h9 h10 h11 ih =>
    obtain ⟨fs, e1, o1, d1⟩ := h6.said
    obtain ⟨gs, e2, o2, d2⟩ := h7.said
    have hall : (fs ++ linkForms kids ++ gs).map asMsg = pre ++ linkMsgs kids ++ post := by
      simp only [List.map_append, e1, e2, linkForms_msgs]
    obtain ⟨ps, p1, p2, p3, p4⟩ := nilPad_form (((fs ++ linkForms kids ++ gs).map asMsg).flatMap Msg.enc).length
    rw [← hall] at h1 h4 h5
    have hhead : Holds file (.header i.addr { name := i.name, addr := i.addr } i kids) := by
      refine .header2 (hd := plainHead) (ms := bare ((fs ++ linkForms kids ++ gs) ++ ps)) ?_ ?_ ?_ ?_ h3 ?_ ?_
      · simp [Fmt.Head2.OK, plainHead]
      · intro x hx
        obtain ⟨m, hm, rfl⟩ := List.mem_map.1 hx
        refine ⟨(by decide : 0 < 256), (by decide : 0 < 65536), ?_, ?_⟩
        · simp only [List.mem_append] at hm
          rcases hm with ((hm | hm) | hm) | hm
          · exact o1 m hm
          · obtain ⟨k, hk, rfl⟩ := List.mem_map.1 hm
            obtain ⟨a, b⟩ := h10 k hk
            simp only [Message.OK]
            refine ⟨by decide, by simp, by simp, ?_, b⟩
            have : (256 : Nat) ^ 2 ^ 0 = 256 := by decide
            omega
          · exact o2 m hm
          · exact p2 m hm
        · rw [List.mem_append] at hm
          rcases hm with hm | hm
          · exact (h4 (asMsg m) (List.mem_map_of_mem hm)).2
          · exact p3 m hm
      · have hb : msgBlock ((fs ++ linkForms kids ++ gs).map asMsg) =
            Fmt.frames2 false (bare ((fs ++ linkForms kids ++ gs) ++ ps)) := by
          rw [frames2_bare, List.map_append (l₂ := ps), List.flatMap_append, ← p1]
          rfl
        show (Fmt.frames2 false (bare ((fs ++ linkForms kids ++ gs) ++ ps))).length + 0 < 256 ^ 2 ^ 2
        rw [← hb]
        have : (256 : Nat) ^ 2 ^ 2 = 2 ^ 32 := by decide
        omega
      · rw [headerBody_form _ _ p1, headerBody_length]
        omega
      · rw [header2_form _ _ hdr p1 h5 h1]
        exact h2
      · have hmap : (bare ((fs ++ linkForms kids ++ gs) ++ ps)).map (·.2.2) =
            fs ++ (linkForms kids ++ (gs ++ (ps ++ []))) := by
          rw [List.append_nil, ← List.append_assoc, ← List.append_assoc, bare, List.map_map]
          exact List.map_id _
        rw [hmap]
        exact d1.holds (links_hold (fun k hk => (ih k hk).2) (d2.holds ((p4 i).holds .nil)))
    refine ⟨hhead, ?_⟩
    simp only [Bool.or_eq_false_iff] at h8
    have := Holds.object (m := ⟨i.name, i.addr, 0, false⟩) hhead (no_attrs h8.1) (no_links h8.2) .none
      (by simpa using h9)
    rw [List.append_nil, List.append_nil] at this
    exact this

theorem Stored.nodupKids {file : Bytes} {o : Obj} (h : Stored file o) : (o.kids.map (·.info.name)).Nodup := by
  cases h
  assumption

mutual
theorem addrs_below : ∀ o : Obj, Fmt.addrsBelow o = o.info.addr :: addrsBelow o
  | .mk i kids => by simp only [Fmt.addrsBelow, addrsBelow, Obj.info, addrs_all kids]
theorem addrs_all : ∀ os : List Obj, Fmt.allAddrs os = addrsBelowL os
  | [] => rfl
  | o :: os => by simp only [Fmt.allAddrs, addrsBelowL, addrs_below o, addrs_all os, List.cons_append]
end

/-- A file with a superblock and a stored root object holds this object. -/
theorem Stored.fileHolds {file body : Bytes} {sum : UInt32} {o : Obj} (h : Stored file o)
    (hfile : file = superHead (48 + body.length) o.info.addr ++ leEnc 4 sum.toNat ++ body)
    (hsum : checksum (superHead (48 + body.length) o.info.addr) = .ok sum)
    (hname : o.info.name = []) (hgrp : o.info.isGroup = true)
    (hroot : o.info.addr < 2 ^ 63) (hnd : (addrsBelow o).Nodup) : Fmt.FileHolds file o := by
  have hl : file.length = 48 + body.length := by
    rw [hfile]
    simp only [List.length_append, superHead_length, leEnc_length]
  have hd := h.dump
  simp only [Bool.or_eq_false_iff] at hd
  have hh := h.holds.1
  rw [hname] at hh
  obtain ⟨r, h1, h2⟩ := checksum_lookup3 (superHead (48 + body.length) o.info.addr)
    (by rw [superHead_length]; omega)
  rw [hsum, Res.ok.injEq] at h1
  subst h1
  refine ⟨o.info.addr, Fmt.undefAddr, o.info, [], [], o.kids, [], ?_, ?_, .inl rfl, hh, no_attrs hd.1, no_links hd.2,
    .none, by simpa using h.nodupKids, ?_, ?_⟩
  · refine .inr ⟨2, 0, 48 + body.length, .inl rfl, by decide, by omega, by omega, by decide, body, ?_⟩
    rw [List.drop_zero, hfile]
    have e : Fmt.superNew 2 0 Fmt.undefAddr (48 + body.length) o.info.addr =
        superHead (48 + body.length) o.info.addr := by
      simp only [Fmt.superNew, Fmt.num, leEnc1, superHead]
      rfl
    rw [Fmt.block, e, ← h2]
    rfl
  · rw [show Fmt.undefAddr = 0xffffffffffffffff from rfl]
    omega
  · rw [List.append_nil, addrs_all]
    cases o
    exact hnd
  · cases o with
    | mk i kids =>
      simp only [Obj.info] at hgrp
      simp [Obj.info, Obj.kids, ← hgrp]

end Verif.H5
