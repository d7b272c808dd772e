import Verif.Spec.H5Typed
import Verif.Lemmas.H5Elem
/-!
Values of all stored types from their bytes.
-/
namespace Verif.H5

theorem nestT_eq (base : TTy) (dims : List Nat) : nestT base dims = sliceTy base dims := by
  induction dims with
  | nil => rfl
  | cons d ds ih => rw [nestT, sliceTy, ih]

theorem kindTy_stored (be : Bool) (k : Kind) : kindTy (storedNum be k) = .num k := by
  simp [kindTy, numKind_stored]

theorem goTy_stored (be : Bool) (k : Kind) (dims : List Nat) : goTy (storedNum be k) dims = sliceTy (.num k) dims := by
  rw [← kindTy_stored be k]
  cases k <;> rfl

theorem goTy_cons {dt : DT} (h : ByElement dt) (d : Nat) (ds : List Nat) : goTy dt (d :: ds) = .slice (goTy dt ds) := by
  cases dt with
  | str len =>
    have h : len ≠ 1 := h
    simp [goTy, h, sliceTy]
  | vlen len s e => cases s <;> rfl
  | enum => exact h.elim
  | array => exact h.elim
  | time => exact h.elim
  | _ => rfl

theorem Shown.ty {heap : HeapFn} {dt : DT} {dims : List Nat} {b : Bytes} {v : TVal} (h : Shown heap dt dims b v) :
    v.ty = goTy dt dims := by
  induction h with
  | num be k bits hb => rw [goTy_stored]; rfl
  | str n s => simp only [TVal.ty, goTy]; split <;> rfl
  | array len ad e dims b v hl hp hs ih => rw [ih]; rfl
  | rows dt d ds b v hb hd hs ih => rw [goTy_cons hb]; rfl
  | chars => rfl
  | _ => rfl

theorem flatMap_len {n w : Nat} {b : Nat → Bytes} (h : ∀ i, i < n → (b i).length = w) :
    ((List.range n).flatMap b).length = n * w := by
  induction n with
  | zero => simp
  | succ n ih =>
    rw [List.range_succ, List.flatMap_append, List.length_append, ih fun i hi => h i (by omega)]
    simp [h n (by omega), Nat.succ_mul]

theorem Shown.length {heap : HeapFn} {dt : DT} {dims : List Nat} {b : Bytes} {v : TVal} (h : Shown heap dt dims b v) :
    b.length = prod dims * dt.len := by
  induction h with
  | num be k bits hb => rw [numBytes_length, len_stored]; simp [prod]
  | str n s hn => simp [prod, DT.len]; omega
  | chars d s hn => simp [prod, DT.len]; omega
  | blob => simp [prod, DT.len]
  | ref => simp [prod, DT.len]
  | enum be k ns vs dims b v hk hs ih => rw [ih, len_stored]; rfl
  | vlenStr => simp [prod, DT.len]
  | emptyStr => simp [prod, DT.len]
  | seq => simp [prod, DT.len]
  | emptySeq => simp [prod, DT.len]
  | compound => simp [prod, DT.len]
  | array len ad e dims b v hl hp hs ih => rw [ih, prod_append, hl]; simp [DT.len, Nat.mul_assoc]
  | rows dt d ds b v hb hd hs ih => rw [flatMap_len ih, prod, Nat.mul_assoc]

/-! ### `convert` -/

theorem convertTs_self {xs : List TVal} (h : ∀ x ∈ xs, convertT x = x) : convertTs xs = xs := by
  induction xs with
  | nil => rfl
  | cons x xs ih => rw [convertTs, h x List.mem_cons_self, ih fun y hy => h y (List.mem_cons_of_mem _ hy)]

theorem convertT_slice {t : TTy} {n : Nat} {v : Nat → TVal} (hn : 0 < n) (ht : ∀ i, i < n → (v i).ty = t)
    (h : ∀ i, i < n → convertT (v i) = v i) :
    convertT (.slice t ((List.range n).map v)) = .slice t ((List.range n).map v) := by
  obtain ⟨m, rfl⟩ := Nat.exists_eq_succ_of_ne_zero (Nat.ne_of_gt hn)
  rw [List.range_succ_eq_map, List.map_cons]
  have h0 := h 0 hn
  have t0 := ht 0 hn
  have hs : ∀ x ∈ List.map v (List.map Nat.succ (List.range m)), ∃ i, i < m + 1 ∧ x = v i := by
    intro x hx
    simp only [List.mem_map, List.mem_range] at hx
    obtain ⟨_, ⟨i, hi, rfl⟩, rfl⟩ := hx
    exact ⟨i + 1, by omega, rfl⟩
  have hc : convertTs (List.map v (List.map Nat.succ (List.range m))) = List.map v (List.map Nat.succ (List.range m)) := by
    apply convertTs_self
    intro x hx
    obtain ⟨i, hi, rfl⟩ := hs x hx
    exact h i hi
  rw [convertT, hc, h0, t0, if_pos]
  rw [List.all_eq_true]
  intro x hx
  obtain ⟨i, hi, rfl⟩ := hs x hx
  simp [ht i hi]

theorem single_kind {e : DT} (h : Single e) : (stripKinds (goTy e [])).2 = 0 ∧ (stripKinds (goTy e [])).1 = goTy e [] := by
  cases h with
  | num be k => rw [goTy_stored]; exact ⟨rfl, rfl⟩
  | str n => simp only [goTy]; split <;> exact ⟨rfl, rfl⟩
  | _ => exact ⟨rfl, rfl⟩

theorem Shown.seq_pos {heap : HeapFn} {dt : DT} {dims : List Nat} {b : Bytes} {v : TVal} (h : Shown heap dt dims b v)
    {n : Nat} {e : DT} (hd : dt = .vlen n false e) : ∀ d ∈ dims, 0 < d := by
  induction h with
  | rows dt d ds b v hb hz hs ih =>
    intro x hx
    cases hx with
    | head => exact hz ⟨n, e, hd⟩
    | tail _ hx => exact ih 0 (hz ⟨n, e, hd⟩) hd x hx
  | num be k => cases k <;> cases hd
  | seq => intro x hx; cases hx
  | emptySeq => intro x hx; cases hx
  | _ => cases hd

theorem Shown.convert {heap : HeapFn} {dt : DT} {dims : List Nat} {b : Bytes} {v : TVal} (h : Shown heap dt dims b v)
    (hp : ∀ d ∈ dims, 0 < d) : convertT v = v := by
  induction h with
  | seq e addr idx n b v rest hn _ _ _ _ hs ih =>
    exact convertT_slice hn (fun i hi => (hs i hi).ty) fun i hi => ih i hi (by simp)
  | emptySeq e addr idx _ _ h =>
    obtain ⟨h1, h2⟩ := single_kind h
    rw [convertT, emptySlice, h1, h2]; rfl
  | array len ad e dims b v hl hpos hs ih =>
    refine ih fun d hd => ?_
    rcases List.mem_append.mp hd with hd | hd
    · exact hp d hd
    · exact hpos d hd
  | rows dt d ds b v hb hz hs ih =>
    exact convertT_slice (hp d List.mem_cons_self) (fun i hi => (hs i hi).ty)
      fun i hi => ih i hi fun x hx => hp x (List.mem_cons_of_mem _ hx)
  | _ => rfl

/-! ### Reading -/

theorem timesT_map {p : DT → P (TVal × DT)} {t : DT} {b : Nat → Bytes} {v : Nat → TVal} (is : List Nat) (q : Nat)
    (rest : Bytes) (h : ∀ i ∈ is, ∀ q rest, p t ⟨q, b i ++ rest⟩ = .ok ((v i, t), ⟨q + (b i).length, rest⟩)) :
    timesT p is.length t ⟨q, is.flatMap b ++ rest⟩ =
      .ok ((is.map v, t), ⟨q + (is.flatMap b).length, rest⟩) := by
  induction is generalizing q with
  | nil => rfl
  | cons x xs ih =>
    simp only [List.length_cons, List.flatMap_cons, List.append_assoc, timesT, P.bind_apply,
      h x List.mem_cons_self, ih _ fun y hy => h y (List.mem_cons_of_mem _ hy), P.pure_apply, List.map_cons,
      List.length_append, Nat.add_assoc]

theorem timesT_range {p : DT → P (TVal × DT)} {t : DT} {b : Nat → Bytes} {v : Nat → TVal} (n q : Nat)
    (rest : Bytes) (h : ∀ i, i < n → ∀ q rest, p t ⟨q, b i ++ rest⟩ = .ok ((v i, t), ⟨q + (b i).length, rest⟩)) :
    timesT p n t ⟨q, (List.range n).flatMap b ++ rest⟩ =
      .ok (((List.range n).map v, t), ⟨q + ((List.range n).flatMap b).length, rest⟩) := by
  have := timesT_map (List.range n) q rest fun i hi => h i (List.mem_range.mp hi)
  rwa [List.length_range] at this

/-- `allocT` without the names of types and without `convert`. -/
def rawT (cast : DT → Res Unit) (heap : HeapFn) (fuel : Nat) (dt : DT) (dims : List Nat) : P (TVal × DT) :=
  match fuel, dt with
  | _ + 1, .opaque len t => arrT .opaque (still (opaqueT len)) dims (.opaque len t)
  | f + 1, .compound len ms ts => arrT .compound (compoundT (allocT cast heap f)) dims (.compound len ms ts)
  | f + 1, .vlen len false e => do
    let (v, e) ← seqsT heap (fun t => allocT cast heap f t []) dims e
    pure (v, .vlen len false e)
  | f, dt => allocT cast heap f dt dims

/-- `p` reads `b`. -/
def Gives (p : P (TVal × DT)) (b : Bytes) (v : TVal) (dt : DT) : Prop :=
  ∀ q rest, p ⟨q, b ++ rest⟩ = .ok ((v, dt), ⟨q + b.length, rest⟩)

theorem alloc_of_raw {cast : DT → Res Unit} {heap : HeapFn} {fuel : Nat} {dt t : DT} {dims : List Nat} {b : Bytes}
    {v : TVal} (hl : Legible cast dt) (hs : Shown heap dt dims b v) (h : Gives (rawT cast heap fuel dt dims) b v t) :
    Gives (allocT cast heap fuel dt dims) b v t := by
  intro q rest
  have h := h q rest
  cases fuel with
  | zero => cases dt <;> simp_all [rawT]
  | succ f =>
    cases dt with
    | «opaque» len tg =>
      have hl : cast (.opaque len tg) = .ok () := hl
      simp only [rawT] at h
      simp only [allocT, P.bind_apply, P.lift, hl, h]
    | compound len ms ts =>
      have hl : cast (.compound len ms ts) = .ok () := hl.1
      simp only [rawT] at h
      simp only [allocT, P.bind_apply, P.lift, hl, h]
    | vlen len s e =>
      cases s with
      | true => exact h
      | false =>
        have hc : cast (.vlen len false e) = .ok () := hl.1
        simp only [rawT, P.bind_apply] at h
        simp only [allocT, P.bind_apply, P.lift, hc]
        obtain hx | hx | hx : (∃ x s, seqsT heap (fun t => allocT cast heap f t []) dims e ⟨q, b ++ rest⟩ = .ok (x, s)) ∨
            (∃ er, seqsT heap (fun t => allocT cast heap f t []) dims e ⟨q, b ++ rest⟩ = .err er) ∨
            seqsT heap (fun t => allocT cast heap f t []) dims e ⟨q, b ++ rest⟩ = .panic := by
          rcases seqsT heap (fun t => allocT cast heap f t []) dims e ⟨q, b ++ rest⟩ with ⟨x, s⟩ | er | _
          · exact .inl ⟨x, s, rfl⟩
          · exact .inr (.inl ⟨er, rfl⟩)
          · exact .inr (.inr rfl)
        · obtain ⟨x, s, hx⟩ := hx
          rw [hx] at h ⊢
          simp only [P.pure_apply, Res.ok.injEq, Prod.mk.injEq] at h ⊢
          obtain ⟨⟨h1, h2⟩, h3⟩ := h
          refine ⟨⟨?_, h2⟩, h3⟩
          rw [h1]
          exact hs.convert (hs.seq_pos rfl)
        · obtain ⟨er, hx⟩ := hx
          rw [hx] at h; cases h
        · rw [hx] at h; cases h
    | _ => exact h

theorem arrT_rows {base : TTy} {p : DT → P (TVal × DT)} {dt : DT} {d : Nat} {ds : List Nat} {b : Nat → Bytes}
    {v : Nat → TVal} (h : ∀ i, i < d → Gives (arrT base p ds dt) (b i) (v i) dt) :
    Gives (arrT base p (d :: ds) dt) ((List.range d).flatMap b) (.slice (nestT base ds) ((List.range d).map v)) dt := by
  intro q rest
  simp only [arrT, P.bind_apply, timesT_range d q rest h, P.pure_apply]

theorem seqsT_rows {heap : HeapFn} {p : DT → P (TVal × DT)} {e : DT} {d : Nat} {ds : List Nat} {b : Nat → Bytes}
    {v : Nat → TVal} {t : TTy} (hd : 0 < d) (ht : ∀ i, i < d → (v i).ty = t) (hn : t ≠ .nil)
    (h : ∀ i, i < d → Gives (seqsT heap p ds e) (b i) (v i) e) :
    Gives (seqsT heap p (d :: ds) e) ((List.range d).flatMap b) (.slice t ((List.range d).map v)) e := by
  intro q rest
  simp only [seqsT, P.bind_apply, timesT_range d q rest h]
  obtain ⟨m, rfl⟩ := Nat.exists_eq_succ_of_ne_zero (Nat.ne_of_gt hd)
  have h0 := ht 0 hd
  rw [List.range_succ_eq_map, List.map_cons]
  simp only [h0]
  rw [if_pos]
  · rfl
  · simp only [sameTypes, Bool.and_eq_true, bne_iff_ne, ne_eq, hn, not_false_eq_true, true_and, List.all_eq_true]
    intro x hx
    simp only [List.mem_map, List.mem_range] at hx
    obtain ⟨_, ⟨i, hi, rfl⟩, rfl⟩ := hx
    simp [ht (i + 1) (by omega)]

theorem sliceTy_ne {base : TTy} (h : base ≠ .nil) (dims : List Nat) : sliceTy base dims ≠ .nil := by
  cases dims with
  | nil => exact h
  | cons d ds => simp [sliceTy]

theorem raw_rows {cast : DT → Res Unit} {heap : HeapFn} {fuel : Nat} {dt : DT} {d : Nat} {ds : List Nat}
    {b : Nat → Bytes} {v : Nat → TVal} (hf : dt.nestDepth ≤ fuel) (hb : ByElement dt)
    (hz : (∃ n e, dt = .vlen n false e) → 0 < d)
    (hs : ∀ i, i < d → Shown heap dt ds (b i) (v i))
    (h : ∀ i, i < d → Gives (rawT cast heap fuel dt ds) (b i) (v i) dt) :
    Gives (rawT cast heap fuel dt (d :: ds)) ((List.range d).flatMap b) (.slice (goTy dt ds) ((List.range d).map v)) dt := by
  obtain ⟨f, rfl⟩ : ∃ f, fuel = f + 1 := by
    cases fuel with
    | zero => cases dt <;> simp [DT.nestDepth] at hf
    | succ f => exact ⟨f, rfl⟩
  cases dt with
  | fixed n s be =>
    simp only [rawT, allocT, goTy, kindTy] at h ⊢
    cases hn : numKind (.fixed n s be) with
    | none => rcases hb with rfl | rfl | rfl | rfl <;> cases hn
    | some x =>
      simp only [hn] at h ⊢
      rw [← nestT_eq]
      exact arrT_rows h
  | float n be =>
    simp only [rawT, allocT, goTy, kindTy] at h ⊢
    cases hn : numKind (.float n be) with
    | none => rcases hb with rfl | rfl <;> cases hn
    | some x =>
      simp only [hn] at h ⊢
      rw [← nestT_eq]
      exact arrT_rows h
  | str n =>
    have hb : n ≠ 1 := hb
    simp only [rawT, allocT, goTy, hb, ↓reduceIte] at h ⊢
    rw [← nestT_eq]
    exact arrT_rows h
  | «opaque» n t =>
    simp only [rawT, goTy] at h ⊢
    rw [← nestT_eq]
    exact arrT_rows h
  | compound len ms ts =>
    simp only [rawT, goTy] at h ⊢
    rw [← nestT_eq]
    exact arrT_rows h
  | ref n =>
    simp only [rawT, allocT, goTy] at h ⊢
    rw [← nestT_eq]
    exact arrT_rows h
  | vlen n s e =>
    cases s with
    | true =>
      simp only [rawT, allocT, goTy] at h ⊢
      rw [← nestT_eq]
      exact arrT_rows h
    | false =>
      have hd := hz ⟨n, e, rfl⟩
      have hq : ∀ i, i < d → Gives (seqsT heap (fun t => allocT cast heap f t []) ds e) (b i) (v i) e := by
        intro i hi q rest
        have := h i hi q rest
        simp only [rawT, P.bind_apply] at this
        revert this
        generalize seqsT heap (fun t => allocT cast heap f t []) ds e ⟨q, b i ++ rest⟩ = r
        intro this
        rcases r with ⟨⟨x, e'⟩, s⟩ | er | _
        · simp only [P.pure_apply, Res.ok.injEq, Prod.mk.injEq, DT.vlen.injEq, true_and] at this ⊢
          exact this
        · cases this
        · cases this
      intro q rest
      have := seqsT_rows (t := goTy (.vlen n false e) ds) hd (fun i hi => (hs i hi).ty) (sliceTy_ne (by simp) ds) hq q rest
      simp only [rawT, P.bind_apply, this, P.pure_apply]
  | enum => exact hb.elim
  | array => exact hb.elim
  | time => exact hb.elim

theorem sub_gives {p : P (TVal × DT)} {b : Bytes} {v : TVal} {t : DT} {n : Nat} (h : Gives p b v t) (hn : b.length = n)
    (q : Nat) (rest : Bytes) : sub n p ⟨q, b ++ rest⟩ = .ok ((v, t), ⟨q + n, rest⟩) := by
  have h := h 0 []
  rw [List.append_nil] at h
  subst hn
  simp only [sub, List.take_left, h, List.drop_left, Nat.zero_add, List.nil_append]

theorem memberSize_eq {dims : Option (List Nat)} {t : DT} (h : prod (dims.getD []) * t.len < 2 ^ 32) :
    (i64 (memberSize dims t)).toNat = prod (dims.getD []) * t.len := by
  have e : memberSize dims t = prod (dims.getD []) * t.len := by
    rw [memberSize, prod64_mod, Nat.mod_mul_mod, Nat.mod_eq_of_lt (by omega)]
  rw [e, i64_of_lt (by omega)]
  rfl

theorem membersT_ok {p : DT → List Nat → P (TVal × DT)} {b : Bytes} (hb : b.length < 2 ^ 32) :
    ∀ (ms : List (Bytes × Nat × Option (List Nat))) (ts : List DT) (vs : List TVal), ms.length = ts.length →
    vs.length = ts.length →
    List.Pairwise (fun x y : (Bytes × Nat × Option (List Nat)) × DT =>
      x.1.2.1 + prod (x.1.2.2.getD []) * x.2.len ≤ y.1.2.1) (ms.zip ts) →
    (∀ (i : Nat) (m : Bytes × Nat × Option (List Nat)) (t : DT), ms[i]? = some m → ts[i]? = some t →
        m.2.1 + prod (m.2.2.getD []) * t.len ≤ b.length) →
    (∀ (i : Nat) (m : Bytes × Nat × Option (List Nat)) (t : DT) (v : TVal), ms[i]? = some m → ts[i]? = some t →
        vs[i]? = some v →
        Gives (p t (m.2.2.getD [])) ((b.drop m.2.1).take (prod (m.2.2.getD []) * t.len)) v t) →
    ∀ (pos : Nat) (rest : Bytes), pos ≤ b.length → (∀ x ∈ ms.zip ts, pos ≤ x.1.2.1) →
    ∃ pos', pos' ≤ b.length ∧ membersT p ms ts ⟨pos, b.drop pos ++ rest⟩ = .ok ((vs, ts), ⟨pos', b.drop pos' ++ rest⟩)
  | [], [], [], _, _, _, _, _, pos, rest, hp, _ => ⟨pos, hp, rfl⟩
  | m :: ms, t :: ts, v :: vs, hm, hv, hpw, hin, hg, pos, rest, hp, hle => by
    have hi := hin 0 m t rfl rfl
    have hoff : pos ≤ m.2.1 := hle (m, t) (by simp)
    rw [List.zip_cons_cons, List.pairwise_cons] at hpw
    obtain ⟨pos', hp', ih⟩ := membersT_ok hb ms ts vs (by simpa using hm) (by simpa using hv) hpw.2
      (fun i m t h1 h2 => hin (i + 1) m t h1 h2) (fun i m t v h1 h2 h3 => hg (i + 1) m t v h1 h2 h3)
      (m.2.1 + prod (m.2.2.getD []) * t.len) rest hi (fun x hx => hpw.1 x hx)
    refine ⟨pos', hp', ?_⟩
    have hsk : (if pos < m.2.1 then skip (m.2.1 - pos) else pure ()) ⟨pos, b.drop pos ++ rest⟩ =
        .ok ((), ⟨m.2.1, b.drop m.2.1 ++ rest⟩) := by
      split
      · next hlt =>
        have hd : b.drop pos = (b.drop pos).take (m.2.1 - pos) ++ b.drop m.2.1 := by
          have h := (List.take_append_drop (m.2.1 - pos) (b.drop pos)).symm
          rwa [List.drop_drop, show pos + (m.2.1 - pos) = m.2.1 by omega] at h
        rw [hd, List.append_assoc]
        simp only [skip, P.bind_apply]
        rw [rdN_append _ _ _ _ (by rw [List.length_take, List.length_drop]; omega)]
        simp only [P.pure_apply, show pos + (m.2.1 - pos) = m.2.1 by omega]
      · next hge =>
        have : pos = m.2.1 := by omega
        subst this
        rfl
    have hsub := sub_gives (hg 0 m t v rfl rfl rfl) (n := prod (m.2.2.getD []) * t.len)
      (by rw [List.length_take, List.length_drop]; omega) m.2.1
      (b.drop (m.2.1 + prod (m.2.2.getD []) * t.len) ++ rest)
    rw [← List.append_assoc, ← List.drop_drop, List.take_append_drop] at hsub
    rw [← List.drop_drop] at ih
    simp only [membersT, P.bind_apply, count, memberSize_eq (dims := m.2.2) (t := t) (by omega)]
    by_cases hlt : pos < m.2.1
    · simp only [hlt, ↓reduceIte] at hsk ⊢
      simp only [P.bind_apply, hsk, hsub, ih, P.pure_apply]
    · simp only [hlt, ↓reduceIte, P.pure_apply, Res.ok.injEq, Prod.mk.injEq, true_and] at hsk ⊢
      simp only [P.bind_apply, hsk, hsub, ih, P.pure_apply]
  | [], [], _ :: _, _, h, _, _, _, _, _, _, _ => by simp at h
  | [], _ :: _, _, h, _, _, _, _, _, _, _, _ => by simp at h
  | _ :: _, [], _, h, _, _, _, _, _, _, _, _ => by simp at h
  | _ :: _, _ :: _, [], _, h, _, _, _, _, _, _, _ => by simp at h

theorem steady_after : ∀ {dt : DT} {dims : List Nat}, Steady dt dims → typeAfter dt dims = dt
  | .array len ad e, _, h => by
    obtain ⟨rfl, h⟩ := h
    rw [typeAfter, List.nil_append, steady_after h]
  | .fixed .., _, _ | .float .., _, _ | .time .., _, _ | .str .., _, _ | .opaque .., _, _ | .compound .., _, _
  | .ref .., _, _ | .enum .., _, _ | .vlen .., _, _ => rfl

theorem Shown.ty_ne {heap : HeapFn} {dt : DT} {dims : List Nat} {b : Bytes} {v : TVal} (h : Shown heap dt dims b v) :
    v.ty ≠ .nil := by
  induction h with
  | array _ _ _ _ _ _ _ _ _ ih => exact ih
  | _ => simp [TVal.ty]

theorem nestDepths_le {ts : List DT} {t : DT} {i : Nat} (h : ts[i]? = some t) : t.nestDepth ≤ nestDepths ts := by
  induction ts generalizing i with
  | nil => simp at h
  | cons x xs ih =>
    cases i with
    | zero => simp at h; subst h; simp [nestDepths]; omega
    | succ i => have := ih h; simp only [nestDepths]; omega

theorem legible_get {cast : DT → Res Unit} {ts : List DT} {t : DT} {i : Nat} (h : ts[i]? = some t)
    (hl : Legible.LegibleAll cast ts) : Legible cast t := by
  induction ts generalizing i with
  | nil => simp at h
  | cons x xs ih =>
    cases i with
    | zero => simp at h; subst h; exact hl.1
    | succ i => exact ih h hl.2

theorem allocT_stored (cast : DT → Res Unit) (heap : HeapFn) (fuel : Nat) (be : Bool) (k : Kind) (dims : List Nat) :
    allocT cast heap (fuel + 1) (storedNum be k) dims = arrT (.num k) (still (numT k be)) dims (storedNum be k) := by
  cases k <;> rfl

theorem rawT_stored (cast : DT → Res Unit) (heap : HeapFn) (fuel : Nat) (be : Bool) (k : Kind) (dims : List Nat) :
    rawT cast heap (fuel + 1) (storedNum be k) dims = arrT (.num k) (still (numT k be)) dims (storedNum be k) := by
  cases k <;> rfl

theorem numT_ok (be : Bool) (k : Kind) (bits : Nat) (h : bits < 256 ^ k.size) (q : Nat) (rest : Bytes) :
    numT k be ⟨q, numBytes be k bits ++ rest⟩ = .ok (.num k bits, ⟨q + (numBytes be k bits).length, rest⟩) := by
  simp only [numT, P.bind_apply, allocNum_stored be k bits h, P.pure_apply, liftV]

theorem fixStrT_ok (n : Nat) (s : Bytes) (hs : s.length ≤ n) (h0 : (0 : UInt8) ∉ s) (q : Nat) (rest : Bytes) :
    fixStrT n ⟨q, s ++ List.replicate (n - s.length) 0 ++ rest⟩ =
      .ok (.str s, ⟨q + (s ++ List.replicate (n - s.length) (0 : UInt8)).length, rest⟩) := by
  have hl : (s ++ List.replicate (n - s.length) (0 : UInt8)).length = n := by simp; omega
  simp only [fixStrT, allocFixStr, P.bind_apply, rdN_append n _ _ _ hl, P.pure_apply, hl, getString_pad s _ h0, liftV]

theorem fuel_pos {dt : DT} {fuel : Nat} (h : dt.nestDepth ≤ fuel) : ∃ f, fuel = f + 1 := by
  cases fuel with
  | zero => cases dt <;> simp [DT.nestDepth] at h
  | succ f => exact ⟨f, rfl⟩

theorem single_after {e : DT} (h : Single e) : typeAfter e [] = e := by
  cases h with
  | num be k => cases k <;> rfl
  | _ => rfl

theorem single_zero {e : DT} (h : Single e) (cast : DT → Res Unit) (heap : HeapFn) {fuel : Nat} (hf : e.nestDepth ≤ fuel) :
    ∃ v, onBytes (List.replicate e.len 0) (allocT cast heap fuel e []) = .ok (v, e) ∧ v.ty = goTy e [] := by
  obtain ⟨f, rfl⟩ := fuel_pos hf
  have hr : ∀ n, rdN n ⟨0, List.replicate n (0 : UInt8)⟩ = .ok (List.replicate n 0, ⟨n, []⟩) := by
    intro n
    have := rdN_append n 0 (List.replicate n (0 : UInt8)) [] (by simp)
    simpa using this
  cases h with
  | num be k =>
    rw [allocT_stored, goTy_stored]
    simp only [onBytes, arrT, still, numT, allocNum, P.bind_apply, len_stored, hr, P.pure_apply, liftV]
    exact ⟨_, rfl, rfl⟩
  | str n =>
    simp only [allocT, goTy]
    by_cases hn : n = 1
    · subst hn
      simp only [↓reduceIte, onBytes, still, charsT, fixStrT, allocFixStr, P.bind_apply, DT.len, hr, P.pure_apply, liftV]
      exact ⟨_, rfl, rfl⟩
    · simp only [hn, ↓reduceIte, onBytes, arrT, still, fixStrT, allocFixStr, P.bind_apply, DT.len, hr, P.pure_apply, liftV]
      exact ⟨_, rfl, rfl⟩
  | ref => exact ⟨_, rfl, rfl⟩
  | enum be k ns vs hk =>
    simp only [allocT, numKind_stored, hk, onBytes, arrT, still, numT, allocNum, P.bind_apply, DT.len, hr, P.pure_apply,
      liftV, Bool.false_eq_true, ↓reduceIte]
    exact ⟨_, rfl, rfl⟩
  | vlenStr e => exact ⟨_, rfl, rfl⟩

/-- Reading gives the value for the bytes. -/
theorem Shown.raw {heap : HeapFn} {dt : DT} {dims : List Nat} {b : Bytes} {v : TVal} (h : Shown heap dt dims b v)
    {cast : DT → Res Unit} {fuel : Nat} (hf : dt.nestDepth ≤ fuel) (hl : Legible cast dt) :
    Gives (rawT cast heap fuel dt dims) b v (typeAfter dt dims) := by
  induction h generalizing fuel with
  | num be k bits hb =>
    obtain ⟨f, rfl⟩ := fuel_pos hf
    intro q rest
    rw [rawT_stored, show typeAfter (storedNum be k) [] = storedNum be k by cases k <;> rfl]
    simp only [arrT, still, P.bind_apply, numT_ok be k bits hb, P.pure_apply]
  | str n s hs h0 =>
    obtain ⟨f, rfl⟩ := fuel_pos hf
    intro q rest
    simp only [rawT, allocT, typeAfter]
    by_cases hn : n = 1
    · subst hn
      simp only [↓reduceIte, still, charsT, P.bind_apply, fixStrT_ok 1 s hs h0, P.pure_apply]
    · simp only [hn, ↓reduceIte, arrT, still, P.bind_apply, fixStrT_ok n s hs h0, P.pure_apply]
  | chars d s hs h0 =>
    obtain ⟨f, rfl⟩ := fuel_pos hf
    intro q rest
    simp only [rawT, allocT, typeAfter, ↓reduceIte, still, charsT, P.bind_apply, fixStrT_ok d s hs h0, P.pure_apply]
  | blob t b =>
    obtain ⟨f, rfl⟩ := fuel_pos hf
    intro q rest
    simp only [rawT, typeAfter, arrT, still, opaqueT, P.bind_apply, rdN_append b.length q b rest rfl, P.pure_apply]
  | ref a ha =>
    obtain ⟨f, rfl⟩ := fuel_pos hf
    intro q rest
    have := numT_ok false .u64 a ha q rest
    simp only [numBytes, Bool.false_eq_true, ↓reduceIte, Kind.size] at this
    simp only [rawT, allocT, typeAfter, arrT, still, P.bind_apply, this, P.pure_apply]
  | enum be k ns vs dims b v hk hs ih =>
    obtain ⟨f, rfl⟩ := fuel_pos hf
    intro q rest
    have := ih (fuel := 1) (by cases k <;> simp [storedNum, DT.nestDepth]) (by cases k <;> trivial) q rest
    rw [rawT_stored] at this
    simp only [rawT, allocT, numKind_stored, hk, P.bind_apply, this, P.pure_apply, typeAfter, Bool.false_eq_true, ↓reduceIte]
  | vlenStr e addr idx s h1 h2 h3 h4 h5 h6 =>
    obtain ⟨f, rfl⟩ := fuel_pos hf
    intro q rest
    have hr := readDescriptor_ok s.length addr idx q rest h2 h3 h4
    simp only [descriptor, List.append_assoc] at hr
    simp only [rawT, allocT, typeAfter, arrT, still, vlenStrT, allocVlenStr, P.bind_apply, List.append_assoc, hr,
      show ¬ s.length = 0 from by omega, ↓reduceIte, h6, P.lift, P.pure_apply, Option.getD_some, getString_clean s h5, liftV]
    simp
  | emptyStr e addr idx h3 h4 =>
    obtain ⟨f, rfl⟩ := fuel_pos hf
    intro q rest
    have hr := readDescriptor_ok 0 addr idx q rest (by decide) h3 h4
    simp only [descriptor, List.append_assoc] at hr
    simp only [rawT, allocT, typeAfter, arrT, still, vlenStrT, allocVlenStr, P.bind_apply, List.append_assoc, hr, ↓reduceIte,
      P.pure_apply, liftV]
    simp
  | seq e addr idx n b v rest' h1 h2 h3 h4 h6 hs ih =>
    obtain ⟨f, rfl⟩ := fuel_pos hf
    obtain ⟨hc, hst, hle⟩ := hl
    intro q rest
    have hr := readDescriptor_ok n addr idx q rest h2 h3 h4
    simp only [descriptor, List.append_assoc] at hr
    have hg : ∀ i, i < n → Gives (allocT cast heap f e []) (b i) (v i) e := by
      intro i hi
      have := ih i hi (fuel := f) (by simp only [DT.nestDepth] at hf; omega) hle
      rw [steady_after hst] at this
      exact alloc_of_raw hle (hs i hi) this
    have ht := timesT_range (p := fun t => allocT cast heap f t []) n 0 rest' hg
    have hne : goTy e [] ≠ .nil := by
      rw [← (hs 0 h1).ty]
      exact (hs 0 h1).ty_ne
    obtain ⟨m, rfl⟩ := Nat.exists_eq_succ_of_ne_zero (Nat.ne_of_gt h1)
    simp only [rawT, typeAfter, seqsT, seqT, P.bind_apply, List.append_assoc, hr, show ¬ m.succ = 0 from by omega, ↓reduceIte,
      h6, P.lift, onBytes, ht]
    have h0 := (hs 0 h1).ty
    rw [List.range_succ_eq_map, List.map_cons]
    simp only [h0]
    rw [if_pos]
    · simp [P.pure_apply]
    · simp only [sameTypes, Bool.and_eq_true, bne_iff_ne, ne_eq, hne, not_false_eq_true, true_and, List.all_eq_true]
      intro x hx
      simp only [List.mem_map, List.mem_range] at hx
      obtain ⟨_, ⟨i, hi, rfl⟩, rfl⟩ := hx
      simp [(hs (i + 1) (by omega)).ty]
  | emptySeq e addr idx h3 h4 hsg =>
    obtain ⟨f, rfl⟩ := fuel_pos hf
    intro q rest
    have hr := readDescriptor_ok 0 addr idx q rest (by decide) h3 h4
    simp only [descriptor, List.append_assoc] at hr
    obtain ⟨z, hz, ht⟩ := single_zero hsg cast heap (fuel := f) (by simp only [DT.nestDepth] at hf; omega)
    have hn : z.ty ≠ .nil := by
      rw [ht]
      intro hnil
      have := (single_kind hsg).2
      cases hsg with
      | num be k => rw [goTy_stored] at hnil; cases hnil
      | str n => simp only [goTy] at hnil; split at hnil <;> cases hnil
      | _ => cases hnil
    simp only [rawT, typeAfter, seqsT, seqT, P.bind_apply, List.append_assoc, hr, ↓reduceIte, P.lift, hz, hn, P.pure_apply, ht]
    rw [ht] at hn
    simp [hn, P.pure_apply]
  | compound ms ts vs b hm hv hin hs ih =>
    obtain ⟨f, rfl⟩ := fuel_pos hf
    obtain ⟨hc, hlen, hpw, hst, hle⟩ := hl
    intro q rest
    obtain ⟨pos, hp, hmem⟩ := membersT_ok (p := allocT cast heap f) hlen ms ts vs hm hv hpw hin (by
      intro i m t v h1 h2 h3
      have hd := nestDepths_le h2
      have := ih i m t v h1 h2 h3 (fuel := f) (by simp only [DT.nestDepth] at hf; omega) (legible_get h2 hle)
      rw [steady_after (hst (m, t) (List.mem_of_getElem? (i := i) (by simp [List.getElem?_zip_eq_some, h1, h2])))] at this
      exact alloc_of_raw (legible_get h2 hle) (hs i m t v h1 h2 h3) this) 0 [] (Nat.zero_le _) (fun _ _ => Nat.zero_le _)
    rw [List.drop_zero, List.append_nil, List.append_nil] at hmem
    by_cases hlt : pos < b.length
    · have := rdN_append (b.length - pos) pos (b.drop pos) [] (by simp)
      rw [List.append_nil] at this
      simp only [rawT, typeAfter, arrT, compoundT, sub, List.take_left, List.drop_left, P.bind_apply, hmem, count, hlt,
        ↓reduceIte, skip, this, P.pure_apply, List.nil_append, show pos + (b.length - pos) = b.length by omega]
    · have : pos = b.length := by omega
      subst this
      simp only [rawT, typeAfter, arrT, compoundT, sub, List.take_left, List.drop_left, P.bind_apply, hmem, count, hlt,
        ↓reduceIte, P.pure_apply, List.drop_length, List.nil_append]
  | array len ad e dims b v hlen hpos hs ih =>
    obtain ⟨f, rfl⟩ := fuel_pos hf
    have hl : Legible cast e := hl
    intro q rest
    have := alloc_of_raw hl hs (ih (fuel := f) (by simp only [DT.nestDepth] at hf; omega) hl) q rest
    simp only [rawT, allocT, P.bind_apply, this, P.pure_apply, typeAfter]
  | rows dt d ds b v hb hz hs ih =>
    have ha : ∀ ds, typeAfter dt ds = dt := by
      intro ds
      cases dt with
      | array => exact hb.elim
      | _ => rfl
    rw [ha]
    refine raw_rows hf hb hz hs fun i hi => ?_
    have := ih i hi hf hl
    rwa [ha] at this

/-- `alloc` gives the value for the bytes. -/
theorem Shown.alloc {heap : HeapFn} {dt : DT} {dims : List Nat} {b : Bytes} {v : TVal} (h : Shown heap dt dims b v)
    {cast : DT → Res Unit} (hl : Legible cast dt) (q : Nat) (rest : Bytes) :
    allocTy cast heap dt dims ⟨q, b ++ rest⟩ = .ok ((v, typeAfter dt dims), ⟨q + b.length, rest⟩) :=
  alloc_of_raw hl h (h.raw (Nat.le_refl _) hl) q rest

end Verif.H5
