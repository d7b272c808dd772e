import Verif.Lemmas.CdfEnc
import Verif.Spec.Shape
/-!
General facts about the header reader: it consumes a prefix, depends only on it, and refuses every
shorter one; and what an accepted header satisfies.
-/
namespace Verif.Cdf

/-- A reader that, when it succeeds, has consumed some bytes `pre`, does the same on anything that
starts with `pre`, and reports the end of the file on every proper prefix of `pre`. -/
def Good {α : Type} (p : P α) : Prop :=
  ∀ s a s', p s = .ok (a, s') →
    ∃ pre, s = pre ++ s' ∧ (∀ t, p (pre ++ t) = .ok (a, t)) ∧
      ∀ q, q <+: pre → q ≠ pre → p q = .err .eof

theorem Good.pure {α : Type} (a : α) : Good (pure a : P α) := by
  intro s b s' h
  simp only [Pure.pure, Res.ok.injEq, Prod.mk.injEq] at h
  obtain ⟨rfl, rfl⟩ := h
  refine ⟨[], rfl, fun t => rfl, ?_⟩
  intro q hq hne
  exact absurd (List.prefix_nil.mp hq) hne

theorem Good.fail {α : Type} (e : Err) : Good (P.fail e : P α) := by
  intro s a s' h; cases h

theorem Good.crash {α : Type} : Good (P.crash : P α) := by
  intro s a s' h; cases h

theorem Good.lift {α : Type} (r : Res α) : Good (P.lift r) := by
  intro s a s' h
  cases r with
  | ok b =>
    simp only [P.lift, Res.ok.injEq, Prod.mk.injEq] at h
    obtain ⟨rfl, rfl⟩ := h
    refine ⟨[], rfl, fun t => rfl, ?_⟩
    intro q hq hne
    exact absurd (List.prefix_nil.mp hq) hne
  | err e => cases h
  | panic => cases h

theorem Good.assert (b : Bool) (e : Err) : Good (P.assert b e) := by
  unfold P.assert
  split
  · exact Good.pure ()
  · exact Good.fail e

theorem Good.mk (ma n : Nat) : Good (mk ma n) := by
  unfold Verif.Cdf.mk
  split
  · exact Good.pure ()
  · exact Good.crash

theorem Good.ite {α : Type} {c : Prop} [Decidable c] {p q : P α} (hp : Good p) (hq : Good q) :
    Good (if c then p else q) := by
  split
  · exact hp
  · exact hq

theorem Good.rdN (n : Nat) : Good (rdN n) := by
  intro s a s' h
  unfold Verif.Cdf.rdN at h
  split at h
  · rename_i hn
    simp only [Res.ok.injEq, Prod.mk.injEq] at h
    obtain ⟨rfl, rfl⟩ := h
    refine ⟨s.take n, (List.take_append_drop n s).symm, ?_, ?_⟩
    · intro t
      have hl : (s.take n).length = n := by rw [List.length_take]; omega
      unfold Verif.Cdf.rdN
      rw [if_pos (by rw [List.length_append]; omega)]
      rw [List.take_append_of_le_length (by omega), List.drop_append_of_le_length (by omega)]
      rw [List.take_of_length_le (by omega), List.drop_eq_nil_of_le (by omega)]
      rfl
    · intro q hq hne
      have hl : (s.take n).length = n := by rw [List.length_take]; omega
      have hlt : q.length < n := by
        rcases Nat.lt_or_ge q.length n with h' | h'
        · exact h'
        · exact absurd (hq.eq_of_length_le (by omega)) hne
      unfold Verif.Cdf.rdN
      rw [if_neg (by omega)]
  · cases h

theorem Good.bind {α β : Type} {p : P α} {f : α → P β} (hp : Good p) (hf : ∀ a, Good (f a)) :
    Good (p >>= f) := by
  intro s b s' h
  rw [P.bind_apply] at h
  cases hps : p s with
  | err e => rw [hps] at h; cases h
  | panic => rw [hps] at h; cases h
  | ok r =>
    obtain ⟨a, s1⟩ := r
    rw [hps] at h
    simp only at h
    obtain ⟨pre1, h1, h2, h3⟩ := hp s a s1 hps
    obtain ⟨pre2, h4, h5, h6⟩ := hf a s1 b s' h
    refine ⟨pre1 ++ pre2, by rw [h1, h4, List.append_assoc], ?_, ?_⟩
    · intro t
      rw [P.bind_apply, List.append_assoc, h2]
      exact h5 t
    · intro q hq hne
      rw [P.bind_apply]
      by_cases hlen : q.length < pre1.length
      · have hq1 : q <+: pre1 := by
          apply List.prefix_of_prefix_length_le hq (List.prefix_append _ _) (by omega)
        rw [h3 q hq1 (by intro e; subst e; omega)]
      · have hq1 : pre1 <+: q :=
          List.prefix_of_prefix_length_le (List.prefix_append _ _) hq (by omega)
        obtain ⟨q2, rfl⟩ := hq1
        rw [h2]
        have hq2 : q2 <+: pre2 := (List.prefix_append_right_inj pre1).mp hq
        exact h6 q2 hq2 (by intro e; subst e; exact hne rfl)

theorem Good.repeat {α : Type} {p : P α} (hp : Good p) (n : Nat) : Good (P.repeat p n) := by
  induction n with
  | zero => exact Good.pure []
  | succ n ih => exact hp.bind (fun a => ih.bind (fun as => Good.pure _))

theorem good_read32 : Good read32 := (Good.rdN 4).bind (fun _ => Good.pure _)
theorem good_read64 : Good read64 := (Good.rdN 8).bind (fun _ => Good.pure _)

theorem good_readNumber (v : Nat) : Good (readNumber v) :=
  Good.ite (good_read32.bind (fun _ => Good.pure _)) good_read64

theorem good_readName (ma v : Nat) : Good (readName ma v) :=
  (good_readNumber v).bind (fun _ => (Good.mk _ _).bind (fun _ => (Good.rdN _).bind
    (fun _ => Good.lift _)))

theorem good_getAttr (ma v : Nat) : Good (getAttr ma v) := by
  unfold getAttr
  refine (good_readName ma v).bind (fun name => good_read32.bind (fun vType =>
    (good_readNumber v).bind (fun nvars => ?_)))
  cases NcType.ofCode vType with
  | none => exact Good.fail _
  | some ty =>
    refine (Good.assert _ _).bind (fun _ => (Good.mk _ _).bind (fun _ => (Good.rdN _).bind
      (fun b => (Good.rdN _).bind (fun _ => ?_))))
    cases ty.kind
    · exact Good.pure _
    · exact Good.pure _

theorem good_getNElems (v f : Nat) : Good (getNElems v f) :=
  good_read32.bind (fun _ => (good_readNumber v).bind (fun _ =>
    Good.ite ((Good.assert _ _).bind (fun _ => Good.pure _)) (Good.ite (Good.pure _) (Good.fail _))))

theorem good_getAttrList (ma v : Nat) : Good (getAttrList ma v) :=
  (good_getNElems v _).bind (fun n => ((good_getAttr ma v).repeat n).bind (fun _ => Good.lift _))

theorem good_getDim (ma v : Nat) : Good (getDim ma v) :=
  (good_readName ma v).bind (fun _ => (good_readNumber v).bind (fun _ => Good.pure _))

theorem good_getVar (ma v : Nat) (dims : List Dim) : Good (getVar ma v dims) :=
  (good_readName ma v).bind (fun _ => (good_readNumber v).bind (fun n =>
    (Good.assert _ _).bind (fun _ => ((good_readNumber v).repeat n).bind (fun _ =>
      (good_getAttrList ma v).bind (fun _ => good_read32.bind (fun _ =>
        (good_readNumber v).bind (fun _ => (Good.lift _).bind (fun _ =>
          (Good.ite good_read32 (Good.ite good_read64 (Good.fail _))).bind
            (fun _ => Good.pure _)))))))))

theorem good_readVars (ma v : Nat) (dims : List Dim) (n : Nat) (acc : VarsAcc) :
    Good (readVars ma v dims n acc) := by
  induction n generalizing acc with
  | zero => exact Good.pure _
  | succ n ih =>
    exact (good_getVar ma v dims).bind (fun _ => Good.ite (Good.fail _)
      ((Good.lift _).bind (fun _ => ih _)))

theorem good_readLists (ma v r : Nat) : Good (readLists ma v r) :=
  (good_getNElems v _).bind (fun nd => (Good.assert _ _).bind (fun _ =>
    ((good_getDim ma v).repeat nd).bind (fun dims => (good_getAttrList ma v).bind (fun _ =>
      (good_getNElems v _).bind (fun nv => (good_readVars ma v dims nv _).bind (fun _ =>
        (Good.lift _).bind (fun _ => Good.pure _)))))))

theorem good_readHeader (ma : Nat) : Good (readHeader ma) :=
  (Good.rdN 4).bind (fun _ => Good.ite (Good.fail _) (Good.ite
    ((good_readNumber _).bind (fun _ => (Good.assert _ _).bind (fun _ => good_readLists _ _ _)))
    (Good.fail _)))

/-! ### Inversion -/

theorem P.bind_eq_ok {α β : Type} {p : P α} {f : α → P β} {s : Bytes} {r : β × Bytes}
    (h : (p >>= f) s = .ok r) : ∃ a s1, p s = .ok (a, s1) ∧ f a s1 = .ok r := by
  rw [P.bind_apply] at h
  cases hps : p s with
  | err e => rw [hps] at h; cases h
  | panic => rw [hps] at h; cases h
  | ok x => obtain ⟨a, s1⟩ := x; rw [hps] at h; exact ⟨a, s1, rfl, h⟩

theorem P.lift_eq_ok {α : Type} {r : Res α} {s s' : Bytes} {a : α}
    (h : P.lift r s = .ok (a, s')) : r = .ok a ∧ s' = s := by
  cases r with
  | ok b =>
    simp only [P.lift, Res.ok.injEq, Prod.mk.injEq] at h
    exact ⟨by rw [h.1], h.2.symm⟩
  | err e => cases h
  | panic => cases h

theorem P.assert_eq_ok {b : Bool} {e : Err} {s : Bytes} {r : Unit × Bytes}
    (h : P.assert b e s = .ok r) : b = true ∧ r.2 = s := by
  unfold P.assert at h
  split at h
  · rename_i hb
    simp only [Pure.pure, Res.ok.injEq] at h
    exact ⟨hb, by rw [← h]⟩
  · cases h

theorem P.pure_eq_ok {α : Type} {a : α} {s : Bytes} {r : α × Bytes}
    (h : (pure a : P α) s = .ok r) : r = (a, s) := by
  simp only [Pure.pure, Res.ok.injEq] at h
  exact h.symm

/-- Every result of a repeated reader is a result of the reader. -/
theorem P.repeat_inv {α : Type} {p : P α} {Q : α → Prop}
    (hp : ∀ s a s', p s = .ok (a, s') → Q a) {n : Nat} {s s' : Bytes} {as : List α}
    (h : P.repeat p n s = .ok (as, s')) : as.length = n ∧ ∀ a ∈ as, Q a := by
  induction n generalizing s s' as with
  | zero =>
    have := P.pure_eq_ok h
    simp only [Prod.mk.injEq] at this
    rw [this.1]; simp
  | succ n ih =>
    obtain ⟨a, s1, h1, h2⟩ := P.bind_eq_ok h
    obtain ⟨as', s2, h3, h4⟩ := P.bind_eq_ok h2
    have := P.pure_eq_ok h4
    simp only [Prod.mk.injEq] at this
    obtain ⟨hl, hq⟩ := ih h3
    rw [this.1]
    refine ⟨by simp [hl], ?_⟩
    intro x hx
    rcases List.mem_cons.mp hx with rfl | hx
    · exact hp _ _ _ h1
    · exact hq x hx

theorem rdN_length {n : Nat} {s s' b : Bytes} (h : rdN n s = .ok (b, s')) : b.length = n := by
  unfold rdN at h
  split at h
  · simp only [Res.ok.injEq, Prod.mk.injEq] at h
    rw [← h.1, List.length_take]; omega
  · cases h

theorem read32_lt {s s' : Bytes} {n : Nat} (h : read32 s = .ok (n, s')) : n < 2 ^ 32 := by
  obtain ⟨b, s1, h1, h2⟩ := P.bind_eq_ok h
  have := P.pure_eq_ok h2
  simp only [Prod.mk.injEq] at this
  have hl := beDec_lt b
  rw [rdN_length h1] at hl
  rw [this.1]
  exact hl

theorem read64_lt {s s' : Bytes} {n : Nat} (h : read64 s = .ok (n, s')) : n < 2 ^ 64 := by
  obtain ⟨b, s1, h1, h2⟩ := P.bind_eq_ok h
  have := P.pure_eq_ok h2
  simp only [Prod.mk.injEq] at this
  have hl := beDec_lt b
  rw [rdN_length h1] at hl
  rw [this.1]
  exact hl

theorem readNumber_lt {v : Nat} {s s' : Bytes} {n : Nat} (h : readNumber v s = .ok (n, s')) :
    n < 2 ^ 64 := by
  unfold readNumber at h
  split at h
  · obtain ⟨m, s1, h1, h2⟩ := P.bind_eq_ok h
    have := P.pure_eq_ok h2
    simp only [Prod.mk.injEq] at this
    have hm := read32_lt h1
    rw [this.1]
    unfold signExt32
    split <;> omega
  · exact read64_lt h

/-- The numbers of a value (itself or the elements of a flat slice) fit their kind. -/
def BitsOK (v : GoVal) : Prop :=
  (∀ k bits, v = .num k bits → bits < 256 ^ k.size) ∧
  ∀ t xs k bits, v = .slice t xs → .num k bits ∈ xs → bits < 256 ^ k.size

theorem decodeElems_bits {k : Kind} {n : Nat} {b : Bytes} {k' : Kind} {bits : Nat}
    (hb : b.length = n * k.size) (h : .num k' bits ∈ decodeElems k n b) :
    bits < 256 ^ k'.size := by
  induction n generalizing b with
  | zero => simp [decodeElems] at h
  | succ n ih =>
    rw [Nat.succ_mul] at hb
    rcases List.mem_cons.mp h with h | h
    · simp only [GoVal.num.injEq] at h
      obtain ⟨rfl, rfl⟩ := h
      have := beDec_lt (b.take k'.size)
      rwa [List.length_take, Nat.min_eq_left (by omega)] at this
    · exact ih (by rw [List.length_drop]; omega) h

theorem bitsOK_read {k : Kind} {n : Nat} {b : Bytes} (hb : b.length = n * k.size) :
    BitsOK (unwrapOne (.slice (.num k) (decodeElems k n b))) := by
  unfold unwrapOne
  split
  · rename_i t x heq
    simp only [GoVal.slice.injEq] at heq
    refine ⟨?_, ?_⟩
    · intro k' bits hx
      exact decodeElems_bits (k := k) (n := n) hb (by rw [heq.2, hx]; simp)
    · intro t' xs k' bits hx hm
      cases n with
      | zero => simp [decodeElems] at heq
      | succ n =>
        simp only [decodeElems, List.cons.injEq] at heq
        rw [← heq.2.1] at hx
        cases hx
  · refine ⟨?_, ?_⟩
    · intro k' bits hx; cases hx
    · intro t' xs k' bits hx hm
      simp only [GoVal.slice.injEq] at hx
      obtain ⟨_, rfl⟩ := hx
      exact decodeElems_bits hb hm

theorem getAttr_bits {ma v : Nat} {s s' : Bytes} {r : Bytes × GoVal}
    (h : getAttr ma v s = .ok (r, s')) : BitsOK r.2 := by
  unfold getAttr at h
  obtain ⟨name, s1, h1, h⟩ := P.bind_eq_ok h
  obtain ⟨vt, s2, h2, h⟩ := P.bind_eq_ok h
  obtain ⟨nv, s3, h3, h⟩ := P.bind_eq_ok h
  cases hty : NcType.ofCode vt with
  | none => rw [hty] at h; cases h
  | some ty =>
    rw [hty] at h
    simp only at h
    obtain ⟨_, s4, h4, h⟩ := P.bind_eq_ok h
    obtain ⟨_, s5, h5, h⟩ := P.bind_eq_ok h
    obtain ⟨b, s6, h6, h⟩ := P.bind_eq_ok h
    obtain ⟨_, s7, h7, h⟩ := P.bind_eq_ok h
    cases hk : ty.kind with
    | none =>
      rw [hk] at h
      have := P.pure_eq_ok h
      simp only [Prod.mk.injEq] at this
      rw [this.1]
      refine ⟨?_, ?_⟩
      · intro k bits hx; cases hx
      · intro t xs k bits hx; cases hx
    | some k =>
      rw [hk] at h
      have := P.pure_eq_ok h
      simp only [Prod.mk.injEq] at this
      rw [this.1]
      apply bitsOK_read
      rw [rdN_length h6]
      rw [NcType.kind_size hk]

theorem foldl_set_mem {α : Type} (kvs : List (Bytes × α)) (m : GoMap α) (k : Bytes) (v : α)
    (h : GoMap.get (kvs.foldl (fun m kv => GoMap.set m kv.1 kv.2) m) k = some v) :
    GoMap.get m k = some v ∨ ∃ kv ∈ kvs, kv.2 = v := by
  induction kvs generalizing m with
  | nil => exact Or.inl h
  | cons kv kvs ih =>
    rcases ih _ h with h1 | ⟨kv', hm, hv⟩
    · rw [GoMap.get_set] at h1
      split at h1
      · right
        simp only [Option.some.injEq] at h1
        exact ⟨kv, by simp, h1⟩
      · exact Or.inl h1
    · exact Or.inr ⟨kv', List.mem_cons_of_mem _ hm, hv⟩

theorem getAttrList_bits {ma v : Nat} {s s' : Bytes} {om : OMap GoVal}
    (h : getAttrList ma v s = .ok (om, s')) : ∀ k x, om.get k = some x → BitsOK x := by
  unfold getAttrList at h
  obtain ⟨n, s1, h1, h⟩ := P.bind_eq_ok h
  obtain ⟨kvs, s2, h2, h⟩ := P.bind_eq_ok h
  obtain ⟨h3, _⟩ := P.lift_eq_ok h
  obtain ⟨_, hq⟩ := P.repeat_inv (Q := fun r : Bytes × GoVal => BitsOK r.2)
    (fun _ _ _ hg => getAttr_bits hg) h2
  intro k x hx
  have hval : om.values = kvs.foldl (fun m kv => GoMap.set m kv.1 kv.2) [] := by
    unfold OMap.new at h3
    split at h3
    · cases h3
    · simp only at h3
      split at h3
      · cases h3
      · simp only [Res.ok.injEq] at h3
        rw [← h3]
  unfold OMap.get at hx
  rw [hval] at hx
  rcases foldl_set_mem _ _ _ _ hx with h0 | ⟨kv, hm, rfl⟩
  · simp at h0
  · exact hq kv hm

/-- What is known of a variable of an accepted header. -/
structure VarInv (dims : List Dim) (v : VarRec) : Prop where
  rank : v.dimids.length ≤ 1024
  ids : ∀ id ∈ v.dimids, id < 2 ^ 64
  begin_lt : v.begin_ < 2 ^ 64
  used : ∃ vs u a, usedSize dims v.dimids v.vType vs = .ok (u, a) ∧ v.vsize = w64 u ∧ vs < 2 ^ 64
  code_lt : v.vType < 2 ^ 32
  bits : ∀ k x, v.attrs.get k = some x → BitsOK x

theorem getVar_inv {ma ver : Nat} {dims : List Dim} {s s' : Bytes} {v : VarRec} {add : Nat}
    (h : getVar ma ver dims s = .ok ((v, add), s')) : VarInv dims v := by
  unfold getVar at h
  obtain ⟨name, s1, h1, h⟩ := P.bind_eq_ok h
  obtain ⟨nD, s2, h2, h⟩ := P.bind_eq_ok h
  obtain ⟨_, s3, h3, h⟩ := P.bind_eq_ok h
  obtain ⟨ids, s4, h4, h⟩ := P.bind_eq_ok h
  obtain ⟨attrs, s5, h5, h⟩ := P.bind_eq_ok h
  obtain ⟨vt, s6, h6, h⟩ := P.bind_eq_ok h
  obtain ⟨vs, s7, h7, h⟩ := P.bind_eq_ok h
  obtain ⟨⟨u, a⟩, s8, h8, h⟩ := P.bind_eq_ok h
  obtain ⟨off, s9, h9, h⟩ := P.bind_eq_ok h
  have := P.pure_eq_ok h
  simp only [Prod.mk.injEq] at this
  obtain ⟨⟨rfl, rfl⟩, rfl⟩ := this
  obtain ⟨hn, _⟩ := P.assert_eq_ok h3
  obtain ⟨hl, hids⟩ := P.repeat_inv (Q := fun n => n < 2 ^ 64) (fun _ _ _ => readNumber_lt) h4
  obtain ⟨hu, _⟩ := P.lift_eq_ok h8
  refine ⟨by simp only [hl]; exact of_decide_eq_true hn, hids, ?_,
    ⟨vs, u, _, hu, rfl, readNumber_lt h7⟩, read32_lt h6, getAttrList_bits h5⟩
  unfold readOffset at h9
  split at h9
  · have := read32_lt h9
    exact Nat.lt_trans this (by decide)
  · split at h9
    · exact read64_lt h9
    · cases h9

theorem readVars_inv {ma ver : Nat} {dims : List Dim} {n : Nat} {acc acc' : VarsAcc} {s s' : Bytes}
    (h : readVars ma ver dims n acc s = .ok (acc', s'))
    (h0 : acc.vars.hidden = [] ∧ acc.vars.visible.Nodup ∧
      (∀ k, k ∈ acc.vars.visible ↔ (acc.vars.get k).isSome) ∧
      ∀ k v, acc.vars.get k = some v → v.name = k ∧ VarInv dims v) :
    acc'.vars.hidden = [] ∧ acc'.vars.visible.Nodup ∧
      (∀ k, k ∈ acc'.vars.visible ↔ (acc'.vars.get k).isSome) ∧
      (∀ k v, acc'.vars.get k = some v → v.name = k ∧ VarInv dims v) ∧
      acc'.vars.visible.length = acc.vars.visible.length + n := by
  induction n generalizing acc s with
  | zero =>
    have := P.pure_eq_ok h
    simp only [Prod.mk.injEq] at this
    rw [this.1]
    exact ⟨h0.1, h0.2.1, h0.2.2.1, h0.2.2.2, rfl⟩
  | succ n ih =>
    unfold readVars at h
    obtain ⟨⟨v, add⟩, s1, h1, h⟩ := P.bind_eq_ok h
    simp only at h
    split at h
    · cases h
    · rename_i hnew
      obtain ⟨u, s2, h2, h⟩ := P.bind_eq_ok h
      have hv := getVar_inv h1
      have hnone : acc.vars.get v.name = none := by simpa using hnew
      have hnv : v.name ∉ acc.vars.visible := by
        intro hm
        have := (h0.2.2.1 v.name).mp hm
        rw [hnone] at this; cases this
      have hget : ∀ k, (acc.vars.add v.name v).get k = if k = v.name then some v
          else acc.vars.get k := by
        intro k
        unfold OMap.add OMap.get
        split <;> exact GoMap.get_set _ _ _ _
      have hvis : (acc.vars.add v.name v).visible = acc.vars.visible ++ [v.name] := by
        unfold OMap.add; rw [h0.1]; simp
      have hhid : (acc.vars.add v.name v).hidden = [] := by
        unfold OMap.add; rw [h0.1]; simp
      have := ih h ⟨hhid, by
          rw [hvis, List.nodup_append]
          refine ⟨h0.2.1, by simp, ?_⟩
          intro a ha b hb
          simp at hb; subst hb
          intro e; subst e; exact hnv ha, by
          intro k
          rw [hvis, hget]
          by_cases hk : k = v.name
          · simp [hk]
          · simp [hk, h0.2.2.1 k], by
          intro k w hw
          rw [hget] at hw
          split at hw
          · rename_i hk
            simp only [Option.some.injEq] at hw
            subst hw
            exact ⟨hk.symm, hv⟩
          · exact h0.2.2.2 k w hw⟩
      obtain ⟨a1, a2, a3, a4, a5⟩ := this
      refine ⟨a1, a2, a3, a4, ?_⟩
      rw [a5, hvis]; simp; omega

/-- What is known of an accepted header. -/
structure HdrInv (h : Hdr) : Prop where
  version : h.version = 1 ∨ h.version = 2 ∨ h.version = 5
  ndims : h.dims.length ≤ 1024
  dims_lt : ∀ d ∈ h.dims, d.length < 2 ^ 64
  numRecs_lt : h.numRecs < 2 ^ 64
  nodup : h.vars.visible.Nodup
  mem : ∀ k, k ∈ h.vars.visible ↔ (h.vars.get k).isSome
  vars : ∀ k v, h.vars.get k = some v → v.name = k ∧ VarInv h.dims v

theorem openCdf_inv {ma : Nat} {file : Bytes} {h : Hdr} (ho : openCdf ma file = .ok h) :
    HdrInv h := by
  unfold openCdf at ho
  cases hr : readHeader ma file with
  | err e => rw [hr] at ho; cases ho
  | panic => rw [hr] at ho; cases ho
  | ok r =>
    obtain ⟨h', s'⟩ := r
    rw [hr] at ho
    simp only [Res.ok.injEq] at ho
    subst ho
    unfold readHeader at hr
    obtain ⟨b, s1, h1, hr⟩ := P.bind_eq_ok hr
    split at hr
    · cases hr
    · simp only at hr
      split at hr
      · rename_i hver
        obtain ⟨nr, s2, h2, hr⟩ := P.bind_eq_ok hr
        obtain ⟨_, s3, h3, hr⟩ := P.bind_eq_ok hr
        unfold readLists at hr
        obtain ⟨nd, s4, h4, hr⟩ := P.bind_eq_ok hr
        obtain ⟨_, s5, h5, hr⟩ := P.bind_eq_ok hr
        obtain ⟨dims, s6, h6, hr⟩ := P.bind_eq_ok hr
        obtain ⟨attrs, s7, h7, hr⟩ := P.bind_eq_ok hr
        obtain ⟨nv, s8, h8, hr⟩ := P.bind_eq_ok hr
        obtain ⟨acc, s9, h9, hr⟩ := P.bind_eq_ok hr
        obtain ⟨⟨rs, sp⟩, s10, h10, hr⟩ := P.bind_eq_ok hr
        have := P.pure_eq_ok hr
        simp only [Prod.mk.injEq] at this
        obtain ⟨rfl, _⟩ := this
        obtain ⟨hn, _⟩ := P.assert_eq_ok h5
        obtain ⟨hl, hdl⟩ := P.repeat_inv (p := getDim ma _) (Q := fun d => d.length < 2 ^ 64)
          (by
            intro s a s' hg
            unfold getDim at hg
            obtain ⟨nm, t1, g1, hg⟩ := P.bind_eq_ok hg
            obtain ⟨ln, t2, g2, hg⟩ := P.bind_eq_ok hg
            have := P.pure_eq_ok hg
            simp only [Prod.mk.injEq] at this
            rw [this.1]
            exact readNumber_lt g2) h6
        have hinv := readVars_inv h9 ⟨rfl, List.nodup_nil, by intro k; simp [OMap.empty, OMap.get], by
          intro k v hk; simp [OMap.empty, OMap.get] at hk⟩
        exact ⟨hver, by simp only [hl]; exact of_decide_eq_true hn, hdl, readNumber_lt h2, hinv.2.1, hinv.2.2.1,
          hinv.2.2.2.1⟩
      · cases hr

/-! ### Consequences for a variable -/

theorem mulDims_ok {dims : List Dim} {ids : List Nat} {n m : Nat} (hn : n < 2 ^ 64)
    (h : mulDims dims ids n = .ok m) :
    ∃ ls, ids.map (fun id => dims[id]?.map (·.length)) = ls.map some ∧ m = n * prod ls % 2 ^ 64 := by
  induction ids generalizing n with
  | nil =>
    simp only [mulDims, Res.ok.injEq] at h
    exact ⟨[], rfl, by simp [prod]; omega⟩
  | cons id ids ih =>
    unfold mulDims at h
    cases hd : dims[id]? with
    | none => rw [hd] at h; cases h
    | some d =>
      rw [hd] at h
      simp only at h
      obtain ⟨ls, h1, h2⟩ := ih (Nat.mod_lt _ (by decide)) h
      refine ⟨d.length :: ls, by simp [hd, h1], ?_⟩
      rw [h2, prod, Nat.mul_mod, Nat.mod_mod, ← Nat.mul_mod, Nat.mul_assoc]

end Verif.Cdf
