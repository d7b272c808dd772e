import Verif.Lemmas.H5BTree2
/-!
The reader on dense storage of links and attributes laid out as in `Spec/H5Dense`.
-/
namespace Verif.H5
open Fmt

theorem leEnc_add (a b n : Nat) : leEnc (a + b) n = leEnc a n ++ leEnc b (n / 256 ^ a) := by
  induction a generalizing n with
  | zero => simp [leEnc]
  | succ a ih =>
    rw [show a + 1 + b = (a + b) + 1 by omega]
    simp only [leEnc, ih, List.cons_append]
    rw [Nat.div_div_eq_div_mul, Nat.pow_succ, Nat.mul_comm]

theorem sub_ok {α : Type} {p : P α} {b : Bytes} {a : α} {n : Nat} (hn : b.length = n)
    (h : p ⟨0, b⟩ = .ok (a, ⟨b.length, []⟩)) (q : Nat) : sub n p ⟨q, b⟩ = .ok (a, ⟨q + n, []⟩) := by
  subst hn
  unfold sub
  simp only [List.take_length, h, List.drop_length, List.append_nil]

/-- One bound for all members of a list. -/
theorem uniform {α : Type} (xs : List α) (Q : α → Nat → Prop)
    (h : ∀ x ∈ xs, ∃ N, ∀ fuel, N ≤ fuel → Q x fuel) :
    ∃ N, ∀ fuel, N ≤ fuel → ∀ x ∈ xs, Q x fuel := by
  induction xs with
  | nil => exact ⟨0, by simp⟩
  | cons x xs ih =>
    obtain ⟨N, hN⟩ := h x (by simp)
    obtain ⟨M, hM⟩ := ih fun y hy => h y (by simp [hy])
    refine ⟨max N M, fun fuel hf y hy => ?_⟩
    rcases List.mem_cons.mp hy with rfl | hy
    · exact hN fuel (by omega)
    · exact hM fuel (by omega) y hy

theorem locate_heap {file : Bytes} (hf : file.length < 2 ^ 63) {a b bits heap x : Nat} {addrs : List Nat}
    {obj : Bytes} (hbits : bits = 32 ∨ bits = 40) (hh : HeapAt file heap a b bits addrs)
    (ho : HeapObject file a b bits addrs x obj) :
    ∃ N, ∀ fuel, N ≤ fuel → ∃ blk o, locate file fuel (heapInfo a b bits addrs) x = .ok (blk, o) ∧
      At file (blk + o) obj := by
  obtain ⟨blk, o, hl, hat⟩ := ho
  obtain ⟨-, hab, hbb, n, hn, hs⟩ := readHeap_ok hf heap a b bits addrs hbits hh
  obtain ⟨N, hN⟩ := locate_ok hf hab (by omega) hbits hl n hn hs
  exact ⟨N, fun fuel hfuel => ⟨blk, o, hN fuel hfuel, hat⟩⟩

theorem hardLink_ne (w : Nat) (t : Bool) (o c : Option Nat) (n : Bytes) (a : Nat) : hardLink w t o c n a ≠ [] := by
  intro h
  have := congrArg List.length h
  simp [hardLink, num_eq] at this

theorem attr_ne (v : Nat) (n t s x : Bytes) : Fmt.attr v n t s x ≠ [] := by
  intro h
  have := congrArg List.length h
  simp [Fmt.attr, num_eq] at this

theorem linkRecord_ok {walk : Task → St → Res St} {file : Bytes} (hf : file.length < 2 ^ 63) {h : HeapInfo}
    {attr : Option HeapInfo} {fuel : Nat} (r : DenseLink) (h1 : r.hash < 2 ^ 32) (h2 : r.offset < 2 ^ 32)
    (h3 : r.link.OK) (h4 : r.link.bytes.length < 65536) {blk o : Nat}
    (hl : locate file fuel h r.offset = .ok (blk, o)) (hat : At file (blk + o) r.link.bytes) (st st' : St)
    (hs : addLink walk r.name r.addr (r.order.getD 0) st = .ok st') :
    Rec walk file ⟨some h, attr, fuel⟩ 5 r.record st st' := by
  obtain ⟨g1, g2, g3, g4, g5⟩ := h3
  have hk := fmt_hardLink_pad r.w r.typeStored r.order r.charset r.name r.addr 0 0 g1 g2 g3 g4 g5
  simp only [List.replicate_zero, List.append_nil, Nat.add_zero, Nat.zero_add] at hk
  have hne : r.link.bytes ≠ [] := hardLink_ne _ _ _ _ _ _
  have hle := hat.le hne
  have hpos := List.length_pos_iff.mpr hne
  have hk' : readLink ⟨0, r.link.bytes⟩ = .ok ((r.name, r.addr, r.order.getD 0), ⟨r.link.bytes.length, []⟩) := hk
  have hrd : readLinkAt walk file ((blk + o) % 2 ^ 64) r.link.bytes.length st = .ok st' := by
    unfold readLinkAt
    rw [Nat.mod_eq_of_lt (by omega), seekRun_at _ hat rfl hf hpos,
      sub_ok rfl hk']
    exact hs
  unfold Rec
  simp only [DenseLink.record, num_eq, List.append_assoc]
  have e : readRecord walk file ⟨some h, attr, fuel⟩ 5 st = (do
      let _ ← read32
      let vt ← read8
      checkVal 0 (vt / 16 % 4)
      let offset ← read32
      let len ← read16
      P.lift (do
        let (a, o) ← locate file fuel h offset
        readLinkAt walk file ((a + o) % 2 ^ 64) len st)) := rfl
  rw [e]
  refine PL.bind (Parses.read32 h1) ?_
  refine PL.bind (Parses.read8 (by omega)) ?_
  refine PL.skip (checkVal_ok rfl) ?_
  refine PL.bind (Parses.read32 h2) ?_
  rw [show leEnc 2 r.link.bytes.length = leEnc 2 r.link.bytes.length ++ [] by simp]
  refine PL.bind (Parses.read16 h4) (Parses.lift ?_)
  rw [hl]
  exact hrd

theorem attrRecord_ok {walk : Task → St → Res St} {file : Bytes} (hf : file.length < 2 ^ 63) {h : HeapInfo}
    {link : Option HeapInfo} {fuel : Nat} (r : DenseAttr) (h1 : r.offset < 2 ^ 40) (h2 : r.flags < 256)
    (h3 : r.order < 2 ^ 32) (h4 : r.hash < 2 ^ 32) (h5 : r.attr.OK) (h6 : r.attr.bytes.length < 65536)
    {blk o : Nat} (hl : locate file fuel h r.offset = .ok (blk, o)) (hat : At file (blk + o) r.attr.bytes)
    (st : St) :
    Rec walk file ⟨link, some h, fuel⟩ 8 r.record st
      { st with info := { st.info with attrs := st.info.attrs ++ [⟨r.name, r.space.dims, r.type.dt, r.value⟩] } } := by
  obtain ⟨g1, g2, g3, g4, g5, g6, g7⟩ := h5
  have hk := fmt_attr r.version r.name r.data r.type r.space g1 g2 g3 g4 g5 g6
  rw [g7] at hk
  have hne : r.attr.bytes ≠ [] := attr_ne _ _ _ _ _
  have hle := hat.le hne
  have hpos := List.length_pos_iff.mpr hne
  have hrd : readAttrAt file ((blk + o) % 2 ^ 64) r.attr.bytes.length st =
      .ok { st with info := { st.info with attrs := st.info.attrs ++ [⟨r.name, r.space.dims, r.type.dt, r.value⟩] } } := by
    unfold readAttrAt
    rw [Nat.mod_eq_of_lt (by omega), seekRun_at _ hat rfl hf hpos]
    have hk' : readAttribute ⟨0, r.attr.bytes⟩ = _ := hk
    rw [hk']
    rfl
  unfold Rec
  simp only [DenseAttr.record, num_eq, List.append_assoc]
  have e : readRecord walk file ⟨link, some h, fuel⟩ 8 st = (do
      let vt ← read8
      checkVal 0 (vt / 16 % 4)
      let lo ← read32
      let hi ← read8
      let len ← read16
      let _ ← read8
      let _ ← read32
      let _ ← read32
      P.lift (do
        let (a, o) ← locate file fuel h (lo + hi * 2 ^ 32)
        readAttrAt file ((a + o) % 2 ^ 64) len st)) := rfl
  rw [e]
  have h5 : leEnc 5 r.offset = leEnc 4 (r.offset % 2 ^ 32) ++ leEnc 1 (r.offset / 2 ^ 32) := by
    rw [show (5 : Nat) = 4 + 1 from rfl, leEnc_add]
    simp only [leEnc]
    have e1 : r.offset % 2 ^ 32 % 256 = r.offset % 256 := by omega
    have e2 : r.offset % 2 ^ 32 / 256 % 256 = r.offset / 256 % 256 := by omega
    have e3 : r.offset % 2 ^ 32 / 256 / 256 % 256 = r.offset / 256 / 256 % 256 := by omega
    have e4 : r.offset % 2 ^ 32 / 256 / 256 / 256 % 256 = r.offset / 256 / 256 / 256 % 256 := by omega
    rw [e1, e2, e3, e4]
  refine PL.bind (Parses.read8 (by omega)) ?_
  refine PL.skip (checkVal_ok rfl) ?_
  rw [h5, List.append_assoc]
  refine PL.bind (Parses.read32 (Nat.mod_lt _ (by omega))) ?_
  refine PL.bind (Parses.read8 (by omega)) ?_
  refine PL.bind (Parses.read16 h6) ?_
  refine PL.bind (Parses.read8 h2) ?_
  refine PL.bind (Parses.read32 h3) ?_
  rw [show leEnc 4 r.hash = leEnc 4 r.hash ++ [] by simp]
  refine PL.bind (Parses.read32 h4) (Parses.lift ?_)
  rw [show r.offset % 2 ^ 32 + r.offset / 2 ^ 32 * 2 ^ 32 = r.offset by omega, hl]
  exact hrd

/-- A member of a group in dense storage. -/
def addDense (walk : Task → St → Res St) (l : Bytes × Nat × Nat) (st : St) : Res St :=
  addLink walk l.1 l.2.1 l.2.2 st

theorem denseLinks_ok {file : Bytes} (hf : file.length < 2 ^ 63) {heap btree : Nat}
    {ls : List (Bytes × Nat × Nat)} (h : DenseLinks file heap btree ls) :
    ∃ hl, readHeap file heap = .ok hl ∧ ∃ N, ∀ fuel, N ≤ fuel → ∀ walk attr st st',
      Chain (addDense walk) ls st st' → readBTree2 walk file ⟨some hl, attr, fuel⟩ btree st = .ok st' := by
  obtain ⟨a, b, addrs, rs, hh, hb, hr, rfl⟩ := h
  refine ⟨_, (readHeap_ok hf heap a b 32 addrs (.inl rfl) hh).1, ?_⟩
  obtain ⟨N, hN⟩ := uniform rs (fun r fuel => ∃ blk o, locate file fuel (heapInfo a b 32 addrs) r.offset =
    .ok (blk, o) ∧ At file (blk + o) r.link.bytes) fun r hrm =>
      locate_heap hf (.inl rfl) hh (hr r hrm).2.2.2.2
  refine ⟨N, fun fuel hfuel walk attr st st' hc => ?_⟩
  refine readBTree2_ok hf (by omega) hb (by omega) st st' ?_
  refine hc.map.steps (g := DenseLink.record) fun r hrm s s1 hs => ?_
  obtain ⟨blk, o, hl, hat⟩ := hN fuel hfuel r hrm
  obtain ⟨h1, h2, h3, h4, -⟩ := hr r hrm
  exact linkRecord_ok hf r h1 h2 h3 h4 hl hat s s1 hs

theorem denseAttrs_ok {file : Bytes} (hf : file.length < 2 ^ 63) {heap btree : Nat} {as : List Attr}
    (h : DenseAttrs file heap btree as) :
    ∃ ha, readHeap file heap = .ok ha ∧ ∃ N, ∀ fuel, N ≤ fuel → ∀ walk link st,
      readBTree2 walk file ⟨link, some ha, fuel⟩ btree st =
        .ok { st with info := { st.info with attrs := st.info.attrs ++ as } } := by
  obtain ⟨a, b, addrs, rs, hh, hb, hr, rfl⟩ := h
  refine ⟨_, (readHeap_ok hf heap a b 40 addrs (.inr rfl) hh).1, ?_⟩
  obtain ⟨N, hN⟩ := uniform rs (fun r fuel => ∃ blk o, locate file fuel (heapInfo a b 40 addrs) r.offset =
    .ok (blk, o) ∧ At file (blk + o) r.attr.bytes) fun r hrm =>
      locate_heap hf (.inr rfl) hh (hr r hrm).2.2.2.2.2.2.2
  refine ⟨N, fun fuel hfuel walk link st => ?_⟩
  refine readBTree2_ok hf (by omega) hb (by omega) st _ ?_
  have key : ∀ (xs : List DenseAttr), (∀ r ∈ xs, r ∈ rs) → ∀ st : St,
      Steps (Rec walk file ⟨link, some (heapInfo a b 40 addrs), fuel⟩ 8) (xs.map DenseAttr.record) st
        { st with info := { st.info with
          attrs := st.info.attrs ++ xs.map fun r => ⟨r.name, r.space.dims, r.type.dt, r.value⟩ } } := by
    intro xs
    induction xs with
    | nil =>
      intro _ st
      simp only [List.map_nil, List.append_nil]
      exact .nil
    | cons x xs ih =>
      intro hm st
      obtain ⟨blk, o, hl, hat⟩ := hN fuel hfuel x (hm x (by simp))
      obtain ⟨h1, h2, -, h3, h4, h5, h6, -⟩ := hr x (hm x (by simp))
      refine .cons (attrRecord_ok hf x h1 h2 h3 h4 h5 h6 hl hat st) ?_
      have := ih (fun r hr => hm r (by simp [hr]))
        { st with info := { st.info with attrs := st.info.attrs ++ [⟨x.name, x.space.dims, x.type.dt, x.value⟩] } }
      simpa only [List.map_cons, List.append_assoc, List.singleton_append] using this
  exact key rs (fun _ h => h) st

end Verif.H5
