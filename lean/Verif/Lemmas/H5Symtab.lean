import Verif.Spec.H5Dense
import Verif.Lemmas.H5Header
/-!
The reader on symbol tables laid out as in `Spec/H5Dense`.
-/
namespace Verif.H5
open Fmt

theorem undef_lt : undefAddr < 2 ^ 64 := by decide

/-- A parser run on a part of the file. -/
theorem seekRun_parses {α : Type} {file b c : Bytes} {a n : Nat} {p : P α} {x : α} (h : At file a (b ++ c))
    (hn : (b ++ c).length = n) (hf : file.length < 2 ^ 63) (hs : 0 < n) (hp : Parses p b x) :
    seekRun file a (n : Int) p = .ok x := by
  rw [seekRun_at p h hn hf hs, hp.apply]
  rfl

theorem seekRun_all {α : Type} {l : Bool} {file b : Bytes} {a n : Nat} {p : P α} {x : α} (h : At file a b)
    (hn : b.length = n) (hf : file.length < 2 ^ 63) (hs : 0 < n) (hp : PL l p b x) :
    seekRun file a (n : Int) p = .ok x := by
  rw [seekRun_at p h hn hf hs, hp.all]
  rfl

theorem Parses.magic {m : Bytes} {n : Nat} (h : m.length = n) : Parses (checkMagic n m) m () :=
  fun q rest _ => by rw [checkMagic_app m rest q n h, h]

theorem Parses.lift {α : Type} {r : Res α} {a : α} (h : r = .ok a) : Parses (P.lift r) [] a :=
  fun q rest _ => by subst h; rfl

theorem Parses.read64s {ds : List Nat} (h : ∀ d ∈ ds, d < 2 ^ 64) :
    Parses (read64s ds.length) (ds.flatMap (leEnc 8)) ds := fun q rest _ => by
  rw [read64s_ok ds q rest h, leEnc8_flatMap_length]

/-- One step after the other, all of them successful. -/
inductive Chain {β σ : Type} (f : β → σ → Res σ) : List β → σ → σ → Prop
  | nil {s : σ} : Chain f [] s s
  | cons {x : β} {xs : List β} {s s1 s2 : σ} (h : f x s = .ok s1) (hs : Chain f xs s1 s2) :
      Chain f (x :: xs) s s2

theorem Chain.append {β σ : Type} {f : β → σ → Res σ} {xs ys : List β} {s s2 : σ}
    (h : Chain f (xs ++ ys) s s2) : ∃ s1, Chain f xs s s1 ∧ Chain f ys s1 s2 := by
  induction xs generalizing s with
  | nil => exact ⟨s, .nil, h⟩
  | cons x xs ih =>
    cases h with
    | cons h hs =>
      obtain ⟨s1, h1, h2⟩ := ih hs
      exact ⟨s1, .cons h h1, h2⟩

theorem Chain.map {β γ σ : Type} {f : β → σ → Res σ} {g : γ → β} {xs : List γ} {s s2 : σ}
    (h : Chain f (xs.map g) s s2) : Chain (fun x => f (g x)) xs s s2 := by
  induction xs generalizing s with
  | nil => cases h; exact .nil
  | cons x xs ih =>
    cases h with
    | cons h hs => exact .cons h (ih hs)

theorem Chain.imp {β σ : Type} {f g : β → σ → Res σ} {xs : List β} {s s2 : σ}
    (h : Chain f xs s s2) (hfg : ∀ x ∈ xs, ∀ s s1, f x s = .ok s1 → g x s = .ok s1) : Chain g xs s s2 := by
  induction h with
  | nil => exact .nil
  | cons h hs ih =>
    exact .cons (hfg _ (by simp) _ _ h) (ih fun x hx => hfg x (by simp [hx]))

/-- A new member of a group: name and object have not been read before. -/
def addNew (walk : Task → St → Res St) (e : Bytes × Nat) (st : St) : Res St :=
  if st.kids.any (fun k => k.info.name == e.1) then .err .assertFail
  else if st.addrs.contains e.2 then .err .assertFail
  else addObject walk e.1 e.2 0 true st

theorem localHeap_ok {file : Bytes} {heap size free segment : Nat} (hf : file.length < 2 ^ 63)
    (hfree : free < 2 ^ 64) (hseg : segment + size ≤ file.length)
    (hh : At file heap (localHeap size free segment)) {e : SymEntry} (he : e.In file size segment) :
    readLocalHeap file heap e.offset = .ok e.name := by
  obtain ⟨⟨_, h0, hne, _⟩, hlen, hat⟩ := he
  have h1 : seekRun file heap 32 (do
      checkMagic 4 heapSig
      let v ← read8
      checkVal 0 v
      checkZeroes 3
      let dsSize ← read64
      let _ ← read64
      let dsAddr ← read64
      pure (dsSize, dsAddr)) = .ok (size, segment) := by
    refine seekRun_all (n := 32) (l := false) hh (by simp [localHeap, num_eq]) hf (by omega) ?_
    simp only [localHeap, num_eq, List.append_assoc]
    refine PL.bind (Parses.magic rfl) ?_
    refine PL.bind (Parses.read8 (by omega)) ?_
    refine PL.skip (checkVal_ok rfl) ?_
    refine PL.bind (Parses.zero 3) ?_
    refine PL.bind (Parses.read64 (by omega)) ?_
    refine PL.bind (Parses.read64 hfree) ?_
    refine PL.map (Parses.read64 (by omega)) ?_
    intro s
    rfl
  unfold readLocalHeap
  rw [h1]
  simp only [Res.bind_ok]
  have hle := hat.le (by simp)
  simp only [List.length_append, List.length_cons, List.length_nil] at hle
  rw [Nat.mod_eq_of_lt (by omega), i64_of_lt (by omega), i64_of_lt (by omega)]
  have hw : wrap64 ((size : Int) - e.offset) = ((size - e.offset : Nat) : Int) := by
    unfold wrap64; omega
  rw [hw]
  obtain ⟨pre, post, hsplit, hpre⟩ := hat.split (by simp)
  have hpost : size - e.offset - (e.name.length + 1) ≤ post.length := by
    have := congrArg List.length hsplit
    simp only [List.length_append, List.length_cons, List.length_nil] at this
    omega
  have hat' : At file (segment + e.offset) ((e.name ++ [0]) ++ post.take (size - e.offset - (e.name.length + 1))) := by
    refine ⟨post.drop (size - e.offset - (e.name.length + 1)), ?_⟩
    rw [List.append_assoc, List.take_append_drop, hsplit, ← hpre, List.append_assoc pre, List.drop_left]
  refine seekRun_parses hat' ?_ hf (by omega) (Parses.name h0)
  simp only [List.length_append, List.length_cons, List.length_nil, List.length_take]
  omega

theorem symEntry_bytes_length (e : SymEntry) : e.bytes.length = 40 := by
  unfold SymEntry.bytes
  cases e.cache <;> simp [num_eq]

theorem symEntry_ok {file : Bytes} {heap size free segment : Nat} (hf : file.length < 2 ^ 63)
    (hfree : free < 2 ^ 64) (hseg : segment + size ≤ file.length)
    (hh : At file heap (localHeap size free segment)) {e : SymEntry} (he : e.In file size segment) :
    Parses (symEntry file heap) e.bytes (e.name, e.addr) := by
  intro q rest _
  have hl := localHeap_ok hf hfree hseg hh he
  obtain ⟨⟨ha, h0, hne, hc⟩, hlen, hat⟩ := he
  have hr : decide (24 ≤ (e.bytes ++ rest).length) = true := by
    rw [List.length_append, symEntry_bytes_length, decide_eq_true_eq]
    omega
  have hn : decide (0 < e.name.length) = true := by
    rw [decide_eq_true_eq, List.length_pos_iff]; exact hne
  have ho : e.offset < 2 ^ 64 := by omega
  unfold symEntry
  rw [P.bind_apply, remLen_apply]
  simp only [P.bind_apply, hr, P.assert_true]
  unfold SymEntry.bytes
  cases hcc : e.cache with
  | none =>
    have h16 : ∀ q, checkZeroes 16 ⟨q, List.replicate 16 0 ++ rest⟩ = .ok ((), ⟨q + 16, rest⟩) := by
      intro q
      simpa using (Parses.zeroes 16).apply q rest
    have hr16 : decide (16 ≤ 16 + rest.length) = true := by simp
    simp only [num_eq, List.append_assoc, read64_app _ _ _ ho, P.lift, hl, hn, P.assert_true,
      read64_app _ _ _ ha, read32_app _ _ _ (show 0 < 2 ^ 32 by omega), checkVal, BEq.rfl,
      Nat.zero_le, decide_true, ↓reduceIte, P.bind_apply, remLen_apply, hr16, h16, P.pure_apply,
      List.length_append, leEnc_length, List.length_replicate]
  | some c =>
    obtain ⟨hb, hh'⟩ := hc c hcc
    have h12 : decide (1 ≤ 2) = true := by decide
    simp only [num_eq, List.append_assoc, read64_app _ _ _ ho, P.lift, hl, hn, P.assert_true,
      read64_app _ _ _ ha, read32_app _ _ _ (show 0 < 2 ^ 32 by omega),
      read32_app _ _ _ (show 1 < 2 ^ 32 by omega), checkVal, BEq.rfl, h12, ↓reduceIte, P.bind_apply,
      Nat.one_ne_zero, read64_app _ _ _ hb, read64_app _ _ _ hh', P.pure_apply,
      List.length_append, leEnc_length]

theorem symLoop_ok (walk : Task → St → Res St) {file : Bytes} {heap size free segment : Nat}
    (hf : file.length < 2 ^ 63) (hfree : free < 2 ^ 64) (hseg : segment + size ≤ file.length)
    (hh : At file heap (localHeap size free segment)) (es : List SymEntry)
    (he : ∀ e ∈ es, e.In file size segment) (st st' : St)
    (hc : Chain (addNew walk) (es.map fun e => (e.name, e.addr)) st st') :
    Parses (symLoop walk file heap es.length st) (es.flatMap SymEntry.bytes) st' := by
  induction es generalizing st with
  | nil => cases hc; exact PL.pure _
  | cons e es ih =>
    cases hc with
    | cons h hs =>
      simp only [List.length_cons, symLoop, List.flatMap_cons]
      refine PL.bind (symEntry_ok hf hfree hseg hh (he e (by simp))) ?_
      unfold addNew at h
      simp only at h ⊢
      split at h
      · cases h
      split at h
      · cases h
      rename_i h1 h2
      rw [if_neg h1, if_neg h2]
      refine PL.congr (PL.bind (Parses.lift h) (ih (fun x hx => he x (by simp [hx])) _ hs)) rfl ?_
      simp

theorem readSymLeaf_ok (walk : Task → St → Res St) {file : Bytes} {heap size free segment : Nat}
    (hf : file.length < 2 ^ 63) (hfree : free < 2 ^ 64) (hseg : segment + size ≤ file.length)
    (hh : At file heap (localHeap size free segment)) (addr : Nat) (es : List SymEntry)
    (hn : es.length < 65536) (hne : es ≠ []) (hat : At file addr (symNode es))
    (he : ∀ e ∈ es, e.In file size segment) (st st' : St)
    (hc : Chain (addNew walk) (es.map fun e => (e.name, e.addr)) st st') :
    readSymLeaf walk file heap addr st = .ok st' := by
  have hle := hat.le (by simp [symNode])
  unfold symNode at hat hle
  have h8 : ([0x53, 0x4e, 0x4f, 0x44] ++ num 1 1 ++ num 1 0 ++ num 2 es.length).length = 8 := by
    simp [num_eq]
  obtain ⟨h1, h2⟩ := hat.app
  rw [h8] at h2
  have e1 : seekRun file addr 8 (do
      checkMagic 4 snodSig
      let v ← read8
      checkVal 1 v
      let z ← read8
      checkVal 0 z
      read16) = .ok es.length := by
    refine seekRun_all (n := 8) (l := false) h1 h8 hf (by omega) ?_
    simp only [num_eq, List.append_assoc]
    refine PL.bind (Parses.magic rfl) ?_
    refine PL.bind (Parses.read8 (by omega)) ?_
    refine PL.skip (checkVal_ok rfl) ?_
    refine PL.bind (Parses.read8 (by omega)) ?_
    refine PL.skip (checkVal_ok rfl) ?_
    exact Parses.read16 hn
  have hlen : ∀ l : List SymEntry, (l.flatMap SymEntry.bytes).length = l.length * 40 := by
    intro l
    induction l with
    | nil => rfl
    | cons x l ih =>
      rw [List.flatMap_cons, List.length_append, ih, symEntry_bytes_length, List.length_cons]
      omega
  have hpos : 0 < es.length := List.length_pos_iff.mpr hne
  unfold readSymLeaf
  rw [e1]
  simp only [Res.bind_ok]
  rw [List.length_append, h8] at hle
  rw [Nat.mod_eq_of_lt (by omega)]
  refine Eq.trans ?_ (seekRun_all (n := es.length * 40) h2 (hlen es) hf (by omega)
    (symLoop_ok walk hf hfree hseg hh es he st st' hc))
  congr 1

theorem readChildren_ok (kids : List (Nat × Nat)) (h : ∀ k ∈ kids, k.1 < 2 ^ 64 ∧ k.2 < 2 ^ 64) :
    Parses (readChildren kids.length) (kids.flatMap fun k => num 8 k.1 ++ num 8 k.2) (kids.map (·.2)) := by
  induction kids with
  | nil => exact PL.pure _
  | cons k kids ih =>
    simp only [List.length_cons, readChildren, List.flatMap_cons, List.map_cons, num_eq, List.append_assoc]
    refine PL.bind (Parses.read64 (h k (by simp)).1) ?_
    refine PL.bind (Parses.read64 (h k (by simp)).2) ?_
    exact PL.map (ih fun x hx => h x (by simp [hx])) (fun s => rfl)

theorem readSymRoot_ok {file : Bytes} (hf : file.length < 2 ^ 63) (addr last : Nat) (kids : List (Nat × Nat))
    (filler : Bytes) (hn : kids.length < 65536) (hk : ∀ k ∈ kids, k.1 < 2 ^ 64 ∧ k.2 < 2 ^ 64)
    (hl : last < 2 ^ 64) (hfill : 32 ≤ 16 * kids.length + filler.length)
    (hat : At file addr (groupNode 0 kids last ++ filler)) :
    readSymRoot file addr = .ok (kids.map (·.2)) := by
  have hle := hat.le (by simp [groupNode])
  have hlen : ∀ l : List (Nat × Nat), (l.flatMap fun k => num 8 k.1 ++ num 8 k.2).length = 16 * l.length := by
    intro l
    induction l with
    | nil => rfl
    | cons x l ih =>
      rw [List.flatMap_cons, List.length_append, ih, List.length_cons, List.length_append]
      simp only [num_eq, leEnc_length]
      omega
  have hk16 := hlen kids
  unfold groupNode at hat hle
  generalize hbody : (kids.flatMap fun k => num 8 k.1 ++ num 8 k.2) = body at hat hle hk16
  have h24 : ([0x54, 0x52, 0x45, 0x45] ++ num 1 0 ++ num 1 0 ++ num 2 kids.length ++ num 8 undefAddr ++
      num 8 undefAddr).length = 24 := by
    simp [num_eq]
  have e1 : seekRun file addr 52 (do
      checkMagic 4 treeSig
      let nodeType ← read8
      let _ ← read8
      let n ← read16
      let left ← read64
      let right ← read64
      P.assert (left == invalidAddress && right == invalidAddress) .assertFail
      P.assert (nodeType == 0) .assertFail
      pure n) = .ok kids.length := by
    have hx : 52 - 24 ≤ (body ++ (num 8 last ++ filler)).length := by
      simp only [List.length_append, hk16, num_eq, leEnc_length]; omega
    have hat2 : At file addr (([0x54, 0x52, 0x45, 0x45] ++ num 1 0 ++ num 1 0 ++ num 2 kids.length ++
        num 8 undefAddr ++ num 8 undefAddr) ++ (body ++ (num 8 last ++ filler)).take 28) := by
      refine (At.app (c := (body ++ (num 8 last ++ filler)).drop 28) ?_).1
      rw [List.append_assoc _ (List.take _ _), List.take_append_drop]
      simpa only [List.append_assoc] using hat
    refine seekRun_parses (n := 52) hat2 ?_ hf (by omega) ?_
    · rw [List.length_append, h24, List.length_take]
      omega
    · simp only [num_eq, List.append_assoc]
      refine PL.bind (Parses.magic rfl) ?_
      refine PL.bind (Parses.read8 (by omega)) ?_
      refine PL.bind (Parses.read8 (by omega)) ?_
      refine PL.bind (Parses.read16 hn) ?_
      refine PL.bind (Parses.read64 undef_lt) ?_
      refine PL.map (Parses.read64 undef_lt) ?_
      intro s
      rfl
  have hat3 : At file (addr + 24) (body ++ num 8 last) := by
    have h := hat
    simp only [List.append_assoc] at h
    have h' : At file addr (([0x54, 0x52, 0x45, 0x45] ++ num 1 0 ++ num 1 0 ++ num 2 kids.length ++
        num 8 undefAddr ++ num 8 undefAddr) ++ ((body ++ num 8 last) ++ filler)) := by
      simpa only [List.append_assoc] using hat
    have := (h'.app).2
    rw [h24] at this
    exact this.app.1
  unfold readSymRoot
  rw [e1]
  simp only [Res.bind_ok]
  simp only [List.length_append, h24, hk16] at hle
  rw [Nat.mod_eq_of_lt (by omega)]
  have e2 := seekRun_all (n := 16 * kids.length + 8) (l := false) (p := do
      let as ← readChildren kids.length
      let _ ← read64
      pure as) (x := kids.map (·.2)) hat3
    (by simp only [List.length_append, hk16, num_eq, leEnc_length]) hf (by omega) (by
      rw [← hbody]
      refine PL.bind (readChildren_ok kids hk) ?_
      rw [num_eq]
      exact PL.map (Parses.read64 hl) (fun s => rfl))
  simpa using e2

theorem readSymLeaves_ok (walk : Task → St → Res St) {file : Bytes} {heap size free segment : Nat}
    (hf : file.length < 2 ^ 63) (hfree : free < 2 ^ 64) (hseg : segment + size ≤ file.length)
    (hh : At file heap (localHeap size free segment)) (leaves : List SymLeaf)
    (hl : ∀ l ∈ leaves, l.key < 2 ^ 64 ∧ l.entries.length < 65536 ∧ l.entries ≠ [] ∧
      At file l.addr (symNode l.entries) ∧ ∀ e ∈ l.entries, e.In file size segment) (st st' : St)
    (hc : Chain (addNew walk) ((leaves.flatMap SymLeaf.entries).map fun e => (e.name, e.addr)) st st') :
    readSymLeaves walk file heap (leaves.map (·.addr)) st = .ok st' := by
  induction leaves generalizing st with
  | nil => cases hc; rfl
  | cons l leaves ih =>
    rw [List.flatMap_cons, List.map_append] at hc
    obtain ⟨s1, h1, h2⟩ := hc.append
    obtain ⟨_, ha, hb, hd, he⟩ := hl l (by simp)
    rw [List.map_cons, readSymLeaves, readSymLeaf_ok walk hf hfree hseg hh l.addr l.entries ha hb hd he st s1 h1]
    exact ih (fun x hx => hl x (by simp [hx])) s1 h2

/-- A symbol table adds its members. -/
theorem readSymTable_ok (walk : Task → St → Res St) {file : Bytes} (hf : file.length < 2 ^ 63)
    (btree heap : Nat) (es : List (Bytes × Nat)) (h : SymTable file btree heap es) (st st' : St)
    (hc : Chain (addNew walk) es st st') : readSymTable walk file btree heap st = .ok st' := by
  unfold SymTable at h
  obtain ⟨leaves, last, filler, size, free, segment, h1, h2, h3, h4, h5, h6, h7, h8, h9⟩ := h
  subst h9
  have hk : ∀ k ∈ leaves.map (fun l => (l.key, l.addr)), k.1 < 2 ^ 64 ∧ k.2 < 2 ^ 64 := by
    intro k hk
    obtain ⟨l, hl, rfl⟩ := List.mem_map.mp hk
    obtain ⟨ha, _, _, hb, _⟩ := h8 l hl
    have := hb.le (by simp [symNode])
    refine ⟨ha, ?_⟩
    show l.addr < 2 ^ 64
    omega
  have e : readSymRoot file btree = .ok ((leaves.map fun l => (l.key, l.addr)).map (·.2)) := by
    refine readSymRoot_ok hf btree last _ filler ?_ hk h2 ?_ h4
    · rw [List.length_map]; exact h1
    · rw [List.length_map]; exact h3
  rw [List.map_map] at e
  unfold readSymTable
  rw [e, Res.bind_ok]
  exact readSymLeaves_ok walk hf h5 h6 h7 leaves h8 st st' hc

end Verif.H5
