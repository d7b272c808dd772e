import Verif.Lemmas.H5Object
import Verif.Lemmas.H5Super
import Verif.Lemmas.H5Msg
import Verif.Lemmas.H5Forms
/-!
Trees of objects in a file: what the reader makes of headers that link to one another.
-/
namespace Verif.H5

/-- These messages of the format, which concern one object alone, turn `i` into `j`. -/
inductive Does : List Fmt.Message → Info → Info → Prop
  | nil (i : Info) : Does [] i i
  | cons {m : Fmt.Message} {ms : List Fmt.Message} {i j : Info} : m.Plain = true → m.Allowed i →
      Does ms (m.effect i) j → Does (m :: ms) i j

theorem Does.append {xs ys : List Fmt.Message} {i j k : Info} (h1 : Does xs i j) (h2 : Does ys j k) :
    Does (xs ++ ys) i k := by
  induction h1 with
  | nil i => exact h2
  | cons hp ha _ ih => exact .cons hp ha (ih h2)

/-- A message of the format as one of the writer. -/
def asMsg (m : Fmt.Message) : Msg := ⟨m.ty, m.bytes⟩

/-- These messages turn `i` into `j`, whatever the children are, and they are messages of the format
that say this. -/
structure Plain (ms : List Msg) (i j : Info) : Prop where
  acts : ∀ w kids addrs, applyMsgs w 2 ms ⟨i, kids, addrs⟩ = .ok ⟨j, kids, addrs⟩
  said : ∃ fs : List Fmt.Message, fs.map asMsg = ms ∧ (∀ m ∈ fs, m.OK) ∧ Does fs i j

theorem Plain.nil (i : Info) : Plain [] i i := ⟨fun _ _ _ => rfl, [], rfl, by simp, .nil i⟩

theorem Plain.append {xs ys : List Msg} {i j k : Info} (h1 : Plain xs i j) (h2 : Plain ys j k) :
    Plain (xs ++ ys) i k := by
  refine ⟨?_, ?_⟩
  · intro w kids addrs
    rw [applyMsgs_append, h1.acts, Res.bind_ok, h2.acts]
  · obtain ⟨fs, e1, o1, d1⟩ := h1.said
    obtain ⟨gs, e2, o2, d2⟩ := h2.said
    refine ⟨fs ++ gs, by simp [e1, e2], ?_, d1.append d2⟩
    intro m hm
    rcases List.mem_append.1 hm with h | h
    · exact o1 m h
    · exact o2 m h

theorem Plain.cons {x : Msg} {ys : List Msg} {i j k : Info} (h1 : Plain [x] i j) (h2 : Plain ys j k) :
    Plain (x :: ys) i k := Plain.append (xs := [x]) h1 h2

/-- The links to the children. -/
def linkMsgs (kids : List Obj) : List Msg := kids.map fun k => ⟨6, buildLink k.info.name k.info.addr⟩

/-- The headers of this object and of all objects below it are in the file. -/
inductive Stored (file : Bytes) : Obj → Prop
  | mk (i : Info) (kids : List Obj) (pre post : List Msg) (hdr : Bytes) (mid : Info) :
      objectHeader (pre ++ linkMsgs kids ++ post) = .ok hdr → At file i.addr hdr → 0 < i.addr →
      (∀ m ∈ pre ++ linkMsgs kids ++ post, m.Fits) →
      (msgBlock (pre ++ linkMsgs kids ++ post)).length + 10 < 2 ^ 32 →
      Plain pre { name := i.name, addr := i.addr } mid → Plain post mid i →
      (hasHeap i.attr || hasHeap i.link) = false → (kids.map (·.info.name)).Nodup →
      (∀ k ∈ kids, k.info.name.length ≤ 255 ∧ k.info.addr < 2 ^ 64) →
      (∀ k ∈ kids, Stored file k) → Stored file (.mk i kids)

mutual
/-- The addresses of all objects below this one. -/
def addrsBelow : Obj → List Nat
  | .mk _ kids => addrsBelowL kids
/-- The addresses of these objects and of all below them. -/
def addrsBelowL : List Obj → List Nat
  | [] => []
  | k :: ks => k.info.addr :: addrsBelow k ++ addrsBelowL ks
end

/-- What `walk` does with a stored object. -/
def WalksTo (file : Bytes) (o : Obj) : Prop :=
  ∀ addrs a, (addrs ++ addrsBelow o).Nodup → ∃ fuel,
    walk file fuel (.header o.info.addr) ⟨{ name := o.info.name, addr := a }, [], addrs⟩ =
      .ok ⟨o.info, o.kids, addrs ++ addrsBelow o⟩

theorem buildLink_ne (name : Bytes) (addr : Nat) : buildLink name addr ≠ [] := by simp [buildLink]

theorem applyMsg_link (w : Task → St → Res St) (name : Bytes) (addr : Nat) (st : St)
    (hn : name.length ≤ 255) (ha : addr < 2 ^ 64) :
    applyMsg w 2 ⟨6, buildLink name addr⟩ st = addLink w name addr 0 st := by
  have e : handle w 2 2 6 (buildLink name addr).length st = (do
      let (name, addr, co) ← readLink
      P.lift (addLink w name addr co st)) := rfl
  rw [applyMsg, if_neg (buildLink_ne _ _), e, P.bind_apply, readLink_ok name addr 0 hn ha]
  simp only [P.lift]
  cases addLink w name addr 0 st <;> simp

theorem applyMsgs_links (file : Bytes) (info : Info) :
    ∀ (kids : List Obj) (done : List Obj) (addrs : List Nat),
      (∀ k ∈ kids, WalksTo file k) → (∀ k ∈ kids, (hasHeap k.info.attr || hasHeap k.info.link) = false) →
      (∀ k ∈ kids, k.info.name.length ≤ 255 ∧ k.info.addr < 2 ^ 64) →
      ((done ++ kids).map (·.info.name)).Nodup → (addrs ++ addrsBelowL kids).Nodup →
      ∃ fuel, applyMsgs (walk file fuel) 2 (linkMsgs kids) ⟨info, done, addrs⟩ =
        .ok ⟨info, done ++ kids, addrs ++ addrsBelowL kids⟩ := by
  intro kids
  induction kids with
  | nil => intro done addrs _ _ _ _ _; exact ⟨0, by simp [linkMsgs, applyMsgs, addrsBelowL]⟩
  | cons k ks ih =>
    intro done addrs hw hd hl hn ha
    have hna : k.info.addr ∉ addrs := by
      intro hm
      rw [List.nodup_append] at ha
      exact ha.2.2 _ hm _ (by simp [addrsBelowL]) rfl
    have ha1 : ((addrs ++ [k.info.addr]) ++ addrsBelow k).Nodup := by
      have : addrs ++ addrsBelowL (k :: ks) = ((addrs ++ [k.info.addr]) ++ addrsBelow k) ++ addrsBelowL ks := by
        simp [addrsBelowL]
      rw [this] at ha
      exact (List.nodup_append.mp ha).1
    have ha2 : (((addrs ++ [k.info.addr]) ++ addrsBelow k) ++ addrsBelowL ks).Nodup := by
      have : addrs ++ addrsBelowL (k :: ks) = ((addrs ++ [k.info.addr]) ++ addrsBelow k) ++ addrsBelowL ks := by
        simp [addrsBelowL]
      rwa [this] at ha
    have hnn : (done.any fun j => j.info.name == k.info.name) = false := by
      rw [List.any_eq_false]
      intro j hj he
      rw [List.map_append, List.nodup_append] at hn
      exact hn.2.2 _ (List.mem_map_of_mem hj) k.info.name (by simp) (by simpa using he)
    obtain ⟨f1, h1⟩ := hw k (by simp) (addrs ++ [k.info.addr]) k.info.addr ha1
    obtain ⟨f2, h2⟩ := ih (done ++ [k]) ((addrs ++ [k.info.addr]) ++ addrsBelow k)
      (fun j hj => hw j (by simp [hj])) (fun j hj => hd j (by simp [hj]))
      (fun j hj => hl j (by simp [hj])) (by simpa using hn) ha2
    refine ⟨f1 + f2, ?_⟩
    have m1 := walk_mono file f1 (f1 + f2) (by omega) _ _ _ h1
    have hfirst : applyMsg (walk file (f1 + f2)) 2 ⟨6, buildLink k.info.name k.info.addr⟩ ⟨info, done, addrs⟩ =
        .ok ⟨info, done ++ [k], (addrs ++ [k.info.addr]) ++ addrsBelow k⟩ := by
      rw [applyMsg_link _ _ _ _ (hl k (by simp)).1 (hl k (by simp)).2, addLink]
      have hc : addrs.contains k.info.addr = false := by simpa using hna
      have hdk : ∀ w ads, dumpObject w ⟨k.info, k.kids, ads⟩ = .ok ⟨k.info, k.kids, ads⟩ :=
        fun w ads => dumpObject_none (hd k (by simp))
      simp only [hnn, hc, addObject, m1, hdk, Bool.false_eq_true, ↓reduceIte]
      cases k
      rfl
    have hrest : applyMsgs (walk file (f1 + f2)) 2 (linkMsgs ks) ⟨info, done ++ [k], (addrs ++ [k.info.addr]) ++ addrsBelow k⟩ =
        .ok ⟨info, (done ++ [k]) ++ ks, ((addrs ++ [k.info.addr]) ++ addrsBelow k) ++ addrsBelowL ks⟩ := by
      have gen : ∀ (ms : List Msg) (st x : St), applyMsgs (walk file f2) 2 ms st = .ok x →
          applyMsgs (walk file (f1 + f2)) 2 ms st = .ok x := by
        intro ms
        induction ms with
        | nil => intro st x h; exact h
        | cons m ms ihm =>
          intro st x h
          rw [applyMsgs, Res.bind_eq_ok] at h ⊢
          obtain ⟨y, hy1, hy2⟩ := h
          refine ⟨y, ?_, ihm _ _ hy2⟩
          unfold applyMsg at hy1 ⊢
          split at hy1
          · rename_i he; rw [if_pos he]; exact hy1
          · rename_i he
            rw [if_neg he]
            split at hy1
            · rename_i a b hab
              rw [handle_mono (walk_mono file f2 (f1 + f2) (by omega)) _ _ _ _ _ _ _ hab]
              exact hy1
            · cases hy1
            · cases hy1
      exact gen _ _ _ h2
    rw [linkMsgs, List.map_cons, applyMsgs, hfirst, Res.bind_ok]
    rw [linkMsgs] at hrest
    rw [hrest]
    simp [addrsBelowL]

theorem Stored.dump {file : Bytes} {o : Obj} (h : Stored file o) :
    (hasHeap o.info.attr || hasHeap o.info.link) = false := by
  cases h
  assumption

theorem Stored.walks {file : Bytes} (hf : file.length < 2 ^ 63) {o : Obj} (h : Stored file o) :
    WalksTo file o := by
  induction h with
  | mk i kids pre post hdr mid h1 h2 h3 h4 h5 h6 h7 h8 h9 h10 h11 ih =>
    intro addrs a hnd
    obtain ⟨fuel, hk⟩ := applyMsgs_links file mid kids [] addrs ih
      (fun k hk => (h11 k hk).dump) h10 (by simpa using h9) hnd
    refine ⟨fuel + 1, ?_⟩
    simp only [Obj.info]
    rw [walk_header file hdr _ _ fuel _ h4 (by omega) h1 h2 hf h3]
    simp only
    rw [applyMsgs_append, applyMsgs_append, h6.acts, Res.bind_ok, hk, Res.bind_ok, h7.acts]
    simp [Obj.kids, addrsBelow]

/-- A file with a superblock and a stored root object opens. -/
theorem Stored.opens {file body : Bytes} {sum : UInt32} {o : Obj} (h : Stored file o)
    (hfile : file = superHead (48 + body.length) o.info.addr ++ leEnc 4 sum.toNat ++ body)
    (hsum : checksum (superHead (48 + body.length) o.info.addr) = .ok sum)
    (hf : file.length < 2 ^ 63) (hname : o.info.name = []) (hgrp : o.info.isGroup = true)
    (hroot : o.info.addr < 2 ^ 63) (hnd : (addrsBelow o).Nodup) : OpensTo file o := by
  have hl : file.length = 48 + body.length := by
    rw [hfile]
    simp only [List.length_append, superHead_length, leEnc_length]
  obtain ⟨fuel, hw⟩ := h.walks hf [] 0 (by simpa using hnd)
  have hsb := readSuperblock_v2 (48 + body.length) o.info.addr sum.toNat body (by omega) (by omega)
    sum.toNat_lt (by rw [← hfile]; exact hf)
  rw [← hfile, if_pos (by omega), hsum] at hsb
  simp only [↓reduceIte] at hsb
  refine ⟨fuel, ?_⟩
  rw [openN, hsb, Res.bind_ok]
  simp only [ne_eq, not_true_eq_false, ↓reduceIte, Res.pure_eq, Res.bind_ok]
  rw [if_neg (by rw [invalidAddress]; omega)]
  rw [hname] at hw
  rw [show ({ addrs := [] } : St) = ⟨{ name := [], addr := 0 }, [], []⟩ from rfl, hw, Res.bind_ok]
  have he : ({ o.info with isGroup := true } : Info) = o.info := by
    rw [← hgrp]
  have hdk : ∀ w ads, dumpObject w ⟨o.info, o.kids, ads⟩ = .ok ⟨o.info, o.kids, ads⟩ :=
    fun w ads => dumpObject_none h.dump
  simp only [he, hdk, Res.bind_ok]
  cases o
  rfl

end Verif.H5
