import Verif.Spec.H5Rows
import Verif.Lemmas.H5Declared
import Verif.Lemmas.H5TypedSlice
/-!
Lemmas for rows of values read from any HDF5 file: what is read depends on the bytes that are taken, and
on nothing else of the reader.
-/
set_option linter.unusedVariables false

namespace Verif.H5

/-! ### Readers that depend on the bytes they take -/

/-- What `p` gives depends on the bytes that it takes and on the position. -/
def Local {α : Type} (p : P α) : Prop := ∀ pos rem v s', p ⟨pos, rem⟩ = .ok (v, s') →
  ∃ c, rem = c ++ s'.rem ∧ ∀ rest, p ⟨pos, c ++ rest⟩ = .ok (v, ⟨pos + c.length, rest⟩)

/-- What `p` gives depends on the bytes that it takes. -/
def Free {α : Type} (p : P α) : Prop := ∀ pos rem v s', p ⟨pos, rem⟩ = .ok (v, s') →
  ∃ c, rem = c ++ s'.rem ∧ ∀ q rest, p ⟨q, c ++ rest⟩ = .ok (v, ⟨q + c.length, rest⟩)

theorem Free.loc {α : Type} {p : P α} (h : Free p) : Local p := by
  intro pos rem v s' hp
  obtain ⟨c, h1, h2⟩ := h pos rem v s' hp
  exact ⟨c, h1, h2 pos⟩

theorem bind_at {α β : Type} {p : P α} {f : α → P β} {s s1 : S} {a : α} (h : p s = .ok (a, s1)) : (p >>= f) s = f a s1 := by
  rw [P.bind_apply, h]

theorem Local.bind {α β : Type} {p : P α} {f : α → P β} (hp : Local p) (hf : ∀ a, Local (f a)) : Local (p >>= f) := by
  intro pos rem v s' h
  obtain ⟨a, s1, h1, h2⟩ := P.bind_ok h
  obtain ⟨c1, e1, g1⟩ := hp _ _ _ _ h1
  have hs : s1 = ⟨pos + c1.length, s1.rem⟩ := by
    have := g1 s1.rem
    rw [← e1, h1] at this
    exact congrArg Prod.snd (Res.ok.inj this)
  rw [hs] at h2
  obtain ⟨c2, e2, g2⟩ := hf a _ _ _ _ h2
  refine ⟨c1 ++ c2, by rw [e1, e2, List.append_assoc], fun rest => ?_⟩
  rw [List.append_assoc, bind_at (g1 _), g2, List.length_append, Nat.add_assoc]

theorem Free.bind {α β : Type} {p : P α} {f : α → P β} (hp : Free p) (hf : ∀ a, Free (f a)) : Free (p >>= f) := by
  intro pos rem v s' h
  obtain ⟨a, s1, h1, h2⟩ := P.bind_ok h
  obtain ⟨c1, e1, g1⟩ := hp _ _ _ _ h1
  obtain ⟨c2, e2, g2⟩ := hf a s1.pos s1.rem _ _ h2
  refine ⟨c1 ++ c2, by rw [e1, e2, List.append_assoc], fun q rest => ?_⟩
  rw [List.append_assoc, bind_at (g1 _ _), g2, List.length_append, Nat.add_assoc]

theorem Free.pure {α : Type} (a : α) : Free (Pure.pure a : P α) := by
  intro pos rem v s' h
  cases h
  exact ⟨[], rfl, fun q rest => rfl⟩

theorem Free.lift {α : Type} (r : Res α) : Free (P.lift r) := by
  intro pos rem v s' h
  obtain ⟨rfl, rfl⟩ := lift_inv h
  exact ⟨[], rfl, fun q rest => rfl⟩

theorem Free.crash {α : Type} : Free (P.crash : P α) := by intro pos rem v s' h; cases h
theorem Free.fail {α : Type} (e : Err) : Free (P.fail e : P α) := by intro pos rem v s' h; cases h

theorem Free.rdN (n : Nat) : Free (rdN n) := by
  intro pos rem v s' h
  rw [H5.rdN] at h
  split at h
  · rename_i hn
    cases h
    refine ⟨rem.take n, (List.take_append_drop n rem).symm, fun q rest => ?_⟩
    have hl : (rem.take n).length = n := by rw [List.length_take]; exact Nat.min_eq_left hn
    rw [H5.rdN, if_pos (by simp only [List.length_append, hl]; omega), List.take_left' hl, List.drop_left' hl, hl]
  · cases h

theorem Local.count : Local count := by
  intro pos rem v s' h
  cases h
  exact ⟨[], rfl, fun rest => rfl⟩

theorem Local.sub {α : Type} {p : P α} (hp : Local p) (n : Nat) : Free (sub n p) := by
  intro pos rem v s' h
  rw [H5.sub] at h
  split at h
  · rename_i a t ht
    cases h
    obtain ⟨c, e, g⟩ := hp _ _ _ _ ht
    have hc : c.length ≤ n := by
      have := congrArg List.length e
      rw [List.length_take, List.length_append] at this
      omega
    refine ⟨c, ?_, fun q rest => ?_⟩
    · show rem = c ++ (t.rem ++ rem.drop n)
      rw [← List.append_assoc, ← e, List.take_append_drop]
    · have hp : t.pos = c.length := by
        have := g t.rem
        rw [← e, ht] at this
        simpa using congrArg (fun y => y.2.pos) (Res.ok.inj this)
      rw [H5.sub]
      have : (c ++ rest).take n = c ++ rest.take (n - c.length) := by
        rw [List.take_append, List.take_of_length_le hc]
      rw [this, g]
      simp only [Nat.zero_add]
      congr 4
      rw [List.drop_append, List.drop_of_length_le hc, List.nil_append, List.take_append_drop]
  · cases h
  · cases h

theorem Free.times {α : Type} {p : P α} (hp : Free p) : ∀ n, Free (times p n)
  | 0 => Free.pure _
  | n + 1 => by
    rw [H5.times]
    exact hp.bind fun a => (Free.times hp n).bind fun as => Free.pure _

theorem Free.timesT {p : DT → P (TVal × DT)} (hp : ∀ t, Free (p t)) : ∀ n t, Free (timesT p n t)
  | 0, t => Free.pure _
  | n + 1, t => (hp t).bind fun a => (Free.timesT hp n a.2).bind fun as => Free.pure _

theorem Free.arrT {base : TTy} {p : DT → P (TVal × DT)} (hp : ∀ t, Free (p t)) : ∀ dims t, Free (arrT base p dims t)
  | [], t => hp t
  | d :: ds, t => (Free.timesT (Free.arrT hp ds) d t).bind fun a => Free.pure _

theorem Free.still {p : P TVal} (hp : Free p) (t : DT) : Free (still p t) := hp.bind fun v => Free.pure _

theorem Free.numT (k : Kind) (be : Bool) : Free (numT k be) :=
  ((Free.rdN _).bind fun b => Free.pure _).bind fun v => Free.pure _

theorem Free.fixStrT (n : Nat) : Free (fixStrT n) :=
  ((Free.rdN _).bind fun b => Free.pure _).bind fun v => Free.pure _

theorem Free.opaqueT (n : Nat) : Free (opaqueT n) := (Free.rdN _).bind fun b => Free.pure _

theorem Free.readDescriptor : Free readDescriptor :=
  ((Free.rdN _).bind fun b => Free.pure _).bind fun len => ((Free.rdN _).bind fun b => Free.pure _).bind fun addr =>
    ((Free.rdN _).bind fun b => Free.pure _).bind fun idx => Free.pure _

theorem Free.ite {α : Type} {c : Prop} [Decidable c] {p q : P α} (hp : Free p) (hq : Free q) : Free (if c then p else q) := by
  split
  · exact hp
  · exact hq

theorem Free.vlenStrT (heap : HeapFn) : Free (vlenStrT heap) := by
  refine Free.bind ?_ fun v => Free.pure _
  exact Free.readDescriptor.bind fun x => Free.ite (Free.pure _) ((Free.lift _).bind fun b => Free.pure _)

theorem Free.charsT : ∀ dims, Free (charsT dims)
  | [] => Free.fixStrT 1
  | [d] => Free.fixStrT d
  | [d, e] => Free.ite ((Free.fixStrT e).bind fun _ => Free.crash) (Free.pure _)
  | d :: e :: f :: ds => by
    rw [H5.charsT]
    · exact ((Free.charsT (e :: f :: ds)).times d).bind fun xs => Free.pure _
    · simp
    · simp

theorem Free.seqT {heap : HeapFn} {p : DT → P (TVal × DT)} (e : DT) : Free (seqT heap p e) := by
  refine Free.readDescriptor.bind fun x => Free.ite ((Free.lift _).bind fun y => Free.ite Free.crash (Free.pure _))
    ((Free.lift _).bind fun b => ?_)
  cases b with
  | none => exact Free.crash
  | some b =>
    refine (Free.lift _).bind fun y => ?_
    obtain ⟨xs, e'⟩ := y
    cases xs with
    | nil => exact Free.crash
    | cons x xs => exact Free.ite (Free.pure _) Free.crash

theorem Free.seqsT {heap : HeapFn} {p : DT → P (TVal × DT)} : ∀ dims e, Free (seqsT heap p dims e)
  | [], e => Free.seqT e
  | d :: ds, e => by
    refine (Free.timesT (Free.seqsT ds) d e).bind fun y => ?_
    obtain ⟨xs, e'⟩ := y
    cases xs with
    | nil => exact Free.crash
    | cons x xs => exact Free.ite (Free.pure _) Free.crash

theorem Local.members {p : DT → List Nat → P (TVal × DT)} (hp : ∀ t dims, Local (p t dims)) :
    ∀ ms ts, Local (membersT p ms ts)
  | [], ts => (Free.pure _).loc
  | m :: ms, [] => (Free.pure _).loc
  | m :: ms, t :: ts => by
    rw [membersT]
    have rest : Local (do
        let (v, t) ← H5.sub (i64 (memberSize m.2.2 t)).toNat (p t (m.2.2.getD []))
        let (vs, ts) ← membersT p ms ts
        Pure.pure (v :: vs, t :: ts)) :=
      ((hp t _).sub _).loc.bind fun x => (Local.members hp ms ts).bind fun y => (Free.pure _).loc
    refine Local.count.bind fun pos => ?_
    simp only
    split
    · exact ((Free.rdN _).bind fun b => Free.pure _).loc.bind fun _ => rest
    · exact rest

theorem Free.compoundT {p : DT → List Nat → P (TVal × DT)} (hp : ∀ t dims, Local (p t dims)) : ∀ t, Free (compoundT p t)
  | .compound len ms ts => by
    rw [H5.compoundT]
    refine Local.sub ((Local.members hp ms ts).bind fun y => Local.count.bind fun pos => ?_) len
    simp only
    split
    · exact ((Free.rdN _).bind fun b => Free.pure _).loc.bind fun _ => (Free.pure _).loc
    · exact (Free.pure _).loc
  | .fixed .. | .float .. | .time .. | .str .. | .opaque .. | .ref .. | .enum .. | .vlen .. | .array .. => Free.crash

theorem Free.allocT (cast : DT → Res Unit) (heap : HeapFn) : ∀ fuel dt dims, Free (allocT cast heap fuel dt dims)
  | 0, dt, dims => Free.crash
  | fuel + 1, dt, dims => by
    have ih := Free.allocT cast heap fuel
    rw [allocT.eq_def]
    cases dt with
    | fixed len s be =>
      simp only
      split
      · exact Free.arrT (fun t => (Free.numT _ _).still t) dims _
      · exact Free.fail _
    | float len be =>
      simp only
      split
      · exact Free.arrT (fun t => (Free.numT _ _).still t) dims _
      · exact Free.fail _
    | time n => exact Free.pure _
    | str len =>
      exact Free.ite ((Free.charsT dims).still _) (Free.arrT (fun t => (Free.fixStrT _).still t) dims _)
    | «opaque» len tag => exact (Free.lift _).bind fun _ => Free.arrT (fun t => (Free.opaqueT _).still t) dims _
    | compound len ms ts =>
      exact (Free.lift _).bind fun _ => Free.arrT (fun t => Free.compoundT (fun t dims => (ih t dims).loc) t) dims _
    | ref n => exact Free.arrT (fun t => (Free.numT _ _).still t) dims _
    | enum len base names vals =>
      simp only
      split
      · exact Free.ite (Free.fail _) ((Free.arrT (fun t => (Free.numT _ _).still t) dims _).bind fun y => Free.pure _)
      · exact Free.fail _
    | vlen len s e =>
      cases s with
      | true => exact Free.arrT (fun t => (Free.vlenStrT heap).still t) dims _
      | false => exact (Free.lift _).bind fun _ => (Free.seqsT dims e).bind fun y => Free.pure _
    | array len ad e => exact (ih e (dims ++ ad)).bind fun y => Free.pure _

/-! ### How much is taken -/

/-- `p` takes `n` bytes when it succeeds. -/
def Takes {α : Type} (n : Nat) (p : P α) : Prop := ∀ s v s', p s = .ok (v, s') → s.rem.length = s'.rem.length + n

theorem Takes.bind {α β : Type} {m n : Nat} {p : P α} {f : α → P β} (hp : Takes m p) (hf : ∀ a, Takes n (f a)) :
    Takes (m + n) (p >>= f) := by
  intro s v s' h
  obtain ⟨a, s1, h1, h2⟩ := P.bind_ok h
  have := hp _ _ _ h1
  have := hf a _ _ _ h2
  omega

theorem Takes.pure {α : Type} (a : α) : Takes 0 (Pure.pure a : P α) := by
  intro s v s' h
  cases h
  rfl

theorem Takes.crash {α : Type} (n : Nat) : Takes n (P.crash : P α) := by intro s v s' h; cases h
theorem Takes.fail {α : Type} (n : Nat) (e : Err) : Takes n (P.fail e : P α) := by intro s v s' h; cases h

theorem Takes.rdN (n : Nat) : Takes n (rdN n) := by
  intro s v s' h
  rw [H5.rdN] at h
  split at h
  · cases h
    simp only [List.length_drop]
    omega
  · cases h

theorem Takes.map {α β : Type} {n : Nat} {p : P α} {f : α → β} (hp : Takes n p) : Takes n (p >>= fun a => Pure.pure (f a)) :=
  hp.bind fun a => Takes.pure _

theorem Takes.lift {α β : Type} {n : Nat} {r : Res α} {f : α → P β} (hf : ∀ a, Takes n (f a)) : Takes n (P.lift r >>= f) := by
  intro s v s' h
  obtain ⟨a, s1, h1, h2⟩ := P.bind_ok h
  obtain ⟨-, rfl⟩ := lift_inv h1
  exact hf a _ _ _ h2

/-- `p` takes `w` bytes for a value of type `t`, which it leaves as it is. -/
def Elem (t : DT) (w : Nat) (p : DT → P (TVal × DT)) : Prop := ∀ s v t' s', p t s = .ok ((v, t'), s') →
  t' = t ∧ s.rem.length = s'.rem.length + w

theorem Elem.times {t : DT} {w : Nat} {p : DT → P (TVal × DT)} (hp : Elem t w p) : ∀ n s xs t' s',
    timesT p n t s = .ok ((xs, t'), s') → t' = t ∧ s.rem.length = s'.rem.length + n * w ∧ xs.length = n
  | 0, s, xs, t', s', h => by cases h; simp
  | n + 1, s, xs, t', s', h => by
    rw [timesT] at h
    obtain ⟨⟨v, t1⟩, s1, h1, h2⟩ := P.bind_ok h
    obtain ⟨⟨vs, t2⟩, s2, h3, h4⟩ := P.bind_ok h2
    cases h4
    obtain ⟨rfl, i1⟩ := hp _ _ _ _ h1
    obtain ⟨rfl, i2, i3⟩ := hp.times n _ _ _ _ h3
    refine ⟨rfl, ?_, by rw [List.length_cons, i3]⟩
    rw [Nat.add_mul]
    omega

theorem Elem.arr {base : TTy} {t : DT} {w : Nat} {p : DT → P (TVal × DT)} (hp : Elem t w p) :
    ∀ dims, Elem t (prod dims * w) (arrT base p dims)
  | [] => by rw [prod, Nat.one_mul]; exact hp
  | d :: ds => by
    intro s v t' s' h
    rw [arrT] at h
    obtain ⟨⟨xs, t1⟩, s1, h1, h2⟩ := P.bind_ok h
    cases h2
    obtain ⟨h3, h4, -⟩ := (Elem.arr hp ds).times d _ _ _ _ h1
    exact ⟨h3, by rw [prod, Nat.mul_assoc]; exact h4⟩

theorem Takes.numT (k : Kind) (be : Bool) : Takes k.size (numT k be) := (Takes.rdN _).map.map
theorem Takes.fixStrT (n : Nat) : Takes n (fixStrT n) := (Takes.rdN _).map.map
theorem Takes.opaqueT (n : Nat) : Takes n (opaqueT n) := (Takes.rdN _).map
theorem Takes.still {n : Nat} {p : P TVal} (hp : Takes n p) (t : DT) : Elem t n (still p) := by
  intro s v t' s' h
  obtain ⟨h1, rfl⟩ := still_inv h
  exact ⟨rfl, hp _ _ _ h1⟩

theorem Takes.readDescriptor : Takes 16 readDescriptor :=
  (Takes.rdN 4).map.bind fun len => ((Takes.rdN 8).map.bind fun addr => (Takes.rdN 4).map.map : Takes 12 _)

theorem Takes.vlenStrT (heap : HeapFn) : Takes 16 (vlenStrT heap) := by
  refine Takes.map (n := 16) ?_
  intro s v s' h
  obtain ⟨⟨len, addr, idx⟩, s1, h1, h⟩ := P.bind_ok h
  have h16 := Takes.readDescriptor _ _ _ h1
  simp only at h
  split at h
  · cases h
    exact h16
  · obtain ⟨b, s2, h2, h'⟩ := P.bind_ok h
    obtain ⟨-, rfl⟩ := lift_inv h2
    cases h'
    exact h16

theorem Takes.compoundT {p : DT → List Nat → P (TVal × DT)} (hp : ∀ t dims, Local (p t dims)) (len : Nat)
    (ms : List (Bytes × Nat × Option (List Nat))) (ts : List DT) : Takes len (compoundT p (.compound len ms ts)) := by
  intro s v s' h
  rw [H5.compoundT, H5.sub] at h
  split at h
  · rename_i a t ht
    cases h
    obtain ⟨⟨vs, ts'⟩, s1, h1, h2⟩ := P.bind_ok ht
    obtain ⟨c, e, g⟩ := Local.members hp ms ts _ _ _ _ h1
    have hs1 : s1.pos = c.length := by
      have := g s1.rem
      rw [← e, h1] at this
      simpa using congrArg (fun y => y.2.pos) (Res.ok.inj this)
    have el := congrArg List.length e
    rw [List.length_take, List.length_append] at el
    obtain ⟨pos, s2, h3, h4⟩ := P.bind_ok h2
    cases h3
    simp only at h4
    split at h4
    · obtain ⟨_, s3, h5, h6⟩ := P.bind_ok h4
      have := Takes.map (f := fun _ => ()) (Takes.rdN (len - s1.pos)) _ _ _ h5
      cases h6
      simp only [List.length_append, List.length_drop]
      omega
    · cases h4
      simp only [List.length_append, List.length_drop]
      omega
  · cases h
  · cases h

/-! ### Rows of what is read -/

theorem timesT_add {p : DT → P (TVal × DT)} (n : Nat) : ∀ (m : Nat) (t : DT) (s s' : S) (xs : List TVal) (t' : DT),
    timesT p (m + n) t s = .ok ((xs, t'), s') → ∃ ys zs t1 s1, timesT p m t s = .ok ((ys, t1), s1) ∧
      timesT p n t1 s1 = .ok ((zs, t'), s') ∧ xs = ys ++ zs
  | 0, t, s, s', xs, t', h => ⟨[], xs, t, s, rfl, by rwa [Nat.zero_add] at h, rfl⟩
  | m + 1, t, s, s', xs, t', h => by
    rw [Nat.add_right_comm, timesT] at h
    obtain ⟨⟨v, t1⟩, s1, h1, h⟩ := P.bind_ok h
    obtain ⟨⟨vs, t2⟩, s2, h2, h⟩ := P.bind_ok h
    cases h
    obtain ⟨ys, zs, t3, s3, h3, h4, rfl⟩ := timesT_add n m _ _ _ _ _ h2
    refine ⟨v :: ys, zs, t3, s3, ?_, h4, rfl⟩
    rw [timesT, bind_at h1]
    simp only
    rw [bind_at h3]
    rfl

/-- The elements from `b` to `e` are those in the bytes for them. -/
theorem timesT_part {p : DT → P (TVal × DT)} {w : Nat} {t : DT} (hf : ∀ t, Free (p t)) (hp : Elem t w p) {d b e : Nat}
    (h1 : b ≤ e) (h2 : e ≤ d) {B rest : Bytes} {pos : Nat} {xs : List TVal} {t' : DT} {s' : S} (hB : B.length = d * w)
    (h : timesT p d t ⟨pos, B ++ rest⟩ = .ok ((xs, t'), s')) :
    ∃ s2, timesT p (e - b) t ⟨0, (B.drop (b * w)).take ((e - b) * w)⟩ = .ok (((xs.drop b).take (e - b), t), s2) := by
  rw [show d = b + ((e - b) + (d - e)) by omega] at h
  obtain ⟨ys, r, t1, s1, g1, g, rfl⟩ := timesT_add _ _ _ _ _ _ _ h
  obtain ⟨rfl, k1, l1⟩ := hp.times _ _ _ _ _ g1
  obtain ⟨zs, us, t2, s2, g2, g3, rfl⟩ := timesT_add _ _ _ _ _ _ _ g
  obtain ⟨rfl, k2, l2⟩ := hp.times _ _ _ _ _ g2
  obtain ⟨c1, e1, f1⟩ := Free.timesT hf _ _ _ _ _ _ g1
  obtain ⟨c2, e2, f2⟩ := Free.timesT hf _ _ s1.pos s1.rem _ _ g2
  have hc1 : c1.length = b * w := by
    have := congrArg List.length e1
    simp only [List.length_append] at this k1
    omega
  have hc2 : c2.length = (e - b) * w := by
    have := congrArg List.length e2
    simp only [List.length_append] at this
    omega
  have hbw : b * w + (e - b) * w ≤ B.length := by
    rw [hB, ← Nat.add_mul]
    exact Nat.mul_le_mul_right _ (by omega)
  have hrows : (B.drop (b * w)).take ((e - b) * w) = c2 := by
    have : ((B ++ rest).drop (b * w)).take ((e - b) * w) = c2 := by
      rw [e1, e2, ← hc1, List.drop_left, ← hc2, List.take_left]
    rw [← this, List.drop_append_of_le_length (by omega), List.take_append_of_le_length (by rw [List.length_drop]; omega)]
  have := f2 0 []
  rw [List.append_nil] at this
  refine ⟨⟨0 + c2.length, []⟩, ?_⟩
  rw [hrows, this]
  congr 3
  rw [List.drop_left' l1, List.take_left' l2]

theorem arrT_part {base : TTy} {p : DT → P (TVal × DT)} {w : Nat} {t : DT} (hf : ∀ t, Free (p t)) (hp : Elem t w p)
    {d b e : Nat} {ds : List Nat} (h1 : b ≤ e) (h2 : e ≤ d) {B rest : Bytes} {pos : Nat} {v : TVal} {t' : DT} {s' : S}
    (hB : B.length = d * (prod ds * w)) (h : arrT base p (d :: ds) t ⟨pos, B ++ rest⟩ = .ok ((v, t'), s')) :
    ∃ s2, arrT base p ((e - b) :: ds) t ⟨0, (B.drop (b * (prod ds * w))).take ((e - b) * (prod ds * w))⟩ =
      .ok ((sliceV b e v, t), s2) := by
  rw [arrT] at h ⊢
  obtain ⟨⟨xs, t1⟩, s1, g1, g2⟩ := P.bind_ok h
  cases g2
  obtain ⟨s2, h3⟩ := timesT_part (Free.arrT (base := base) hf ds) (hp.arr ds) h1 h2 hB g1
  exact ⟨s2, by rw [bind_at h3]; rfl⟩

theorem compound_elem {cast : DT → Res Unit} {heap : HeapFn} {fuel len : Nat} {ms : List (Bytes × Nat × Option (List Nat))}
    {ts : List DT} (hk : Keeps (.compound len ms ts)) (hc : cast (.compound len ms ts) = .ok ()) :
    Elem (.compound len ms ts) len (compoundT (allocT cast heap fuel)) := by
  intro s v t' s' h
  refine ⟨?_, Takes.compoundT (fun t dims => (Free.allocT cast heap fuel t dims).loc) len ms ts _ _ _ h⟩
  have : allocT cast heap (fuel + 1) (.compound len ms ts) [] s = .ok ((v, t'), s') := by
    rw [allocT.eq_def]
    simp only [arrT]
    rw [bind_at (s := s) (a := ()) (s1 := s) (by rw [hc]; rfl)]
    exact h
  exact (allocT_inv cast heap _ _ _ hk _ _ _ _ this).2

/-! ### Rows of sequences -/

/-- A value that `convert` leaves as it is, and that is not a slice. -/
def Atom (v : TVal) : Prop := convertT v = v ∧ stripKinds v.ty = (v.ty, 0)

theorem Atom.num (k : Kind) (n : Nat) : Atom (.num k n) := ⟨by rw [convertT]; all_goals simp, rfl⟩
theorem Atom.str (b : Bytes) : Atom (.str b) := ⟨by rw [convertT]; all_goals simp, rfl⟩
theorem Atom.enum (v : TVal) (ns : List Bytes) (ms : List TVal) : Atom (.enum v ns ms) := ⟨by rw [convertT]; all_goals simp, rfl⟩

theorem numT_atom {k : Kind} {be : Bool} {s s' : S} {v : TVal} (h : numT k be s = .ok (v, s')) : Atom v := by
  obtain ⟨w, s1, h1, h⟩ := P.bind_ok h
  obtain ⟨b, s2, h2, h1⟩ := P.bind_ok h1
  cases h1
  cases h
  exact Atom.num _ _

theorem fixStrT_atom {n : Nat} {s s' : S} {v : TVal} (h : fixStrT n s = .ok (v, s')) : Atom v := by
  obtain ⟨w, s1, h1, h⟩ := P.bind_ok h
  obtain ⟨b, s2, h2, h1⟩ := P.bind_ok h1
  cases h1
  cases h
  exact Atom.str _

theorem vlenStrT_atom {heap : HeapFn} {s s' : S} {v : TVal} (h : vlenStrT heap s = .ok (v, s')) : Atom v := by
  obtain ⟨w, s1, h1, h⟩ := P.bind_ok h
  obtain ⟨⟨len, addr, idx⟩, s2, h2, h1⟩ := P.bind_ok h1
  simp only at h1
  split at h1
  · cases h1
    cases h
    exact Atom.str _
  · obtain ⟨b, s3, h3, h1⟩ := P.bind_ok h1
    cases h1
    cases h
    exact Atom.str _

theorem allocT_single {cast : DT → Res Unit} {heap : HeapFn} : ∀ {fuel : Nat} {e : DT}, OneValue e → ∀ {s s' : S} {v : TVal} {t' : DT},
    allocT cast heap fuel e [] s = .ok ((v, t'), s') → t' = e ∧ Atom v
  | 0, e, he, s, s', v, t', h => by cases h
  | fuel + 1, e, he, s, s', v, t', h => by
    rw [allocT.eq_def] at h
    cases e with
    | fixed len sg be =>
      simp only at h
      rcases hn : numKind (.fixed len sg be) with _ | ⟨k, be'⟩
      · rw [hn] at h; cases h
      · rw [hn] at h
        obtain ⟨h1, rfl⟩ := still_inv h
        exact ⟨rfl, numT_atom h1⟩
    | float len be =>
      simp only at h
      rcases hn : numKind (.float len be) with _ | ⟨k, be'⟩
      · rw [hn] at h; cases h
      · rw [hn] at h
        obtain ⟨h1, rfl⟩ := still_inv h
        exact ⟨rfl, numT_atom h1⟩
    | str len =>
      simp only at h
      split at h
      · obtain ⟨h1, rfl⟩ := still_inv h
        exact ⟨rfl, fixStrT_atom h1⟩
      · obtain ⟨h1, rfl⟩ := still_inv h
        exact ⟨rfl, fixStrT_atom h1⟩
    | ref n =>
      obtain ⟨h1, rfl⟩ := still_inv h
      exact ⟨rfl, numT_atom h1⟩
    | enum len base names vals =>
      simp only at h
      rcases hn : numKind base with _ | ⟨k, be⟩
      · rw [hn] at h; cases h
      · rw [hn] at h
        simp only at h
        split at h
        · cases h
        · obtain ⟨⟨w, t1⟩, s1, g1, g2⟩ := P.bind_ok h
          cases g2
          exact ⟨rfl, Atom.enum _ _ _⟩
    | vlen len sg el =>
      cases sg with
      | true =>
        obtain ⟨h1, rfl⟩ := still_inv h
        exact ⟨rfl, vlenStrT_atom h1⟩
      | false => exact he.elim
    | time _ => exact he.elim
    | «opaque» _ _ => exact he.elim
    | compound _ _ _ => exact he.elim
    | array _ _ _ => exact he.elim

/-! ### `convert` of arrays of sequences -/

theorem convertTs_fix : ∀ {xs : List TVal}, (∀ x ∈ xs, convertT x = x) → convertTs xs = xs
  | [], _ => by rw [convertTs]
  | x :: xs, h => by
    rw [convertTs, h x List.mem_cons_self, convertTs_fix fun y hy => h y (List.mem_cons_of_mem _ hy)]

theorem convertT_fix {x : TVal} {xs : List TVal} (h : ∀ y ∈ x :: xs, convertT y = y) (hs : sameTypes x.ty xs = true) :
    convertT (.slice x.ty (x :: xs)) = .slice x.ty (x :: xs) := by
  rw [convertT, h x List.mem_cons_self, convertTs_fix fun y hy => h y (List.mem_cons_of_mem _ hy)]
  rw [sameTypes, Bool.and_eq_true] at hs
  rw [if_pos hs.2]

theorem convertT_none {v : TVal} (h : Atom v) : convertT (.slice v.ty []) = .slice v.ty [] := by
  rw [convertT, emptySlice, h.2]
  rfl

theorem timesT_all {p : DT → P (TVal × DT)} {t : DT} {Q : TVal → Prop}
    (hp : ∀ s v t' s', p t s = .ok ((v, t'), s') → t' = t ∧ Q v) : ∀ n s xs t' s',
    timesT p n t s = .ok ((xs, t'), s') → t' = t ∧ ∀ x ∈ xs, Q x
  | 0, s, xs, t', s', h => by cases h; exact ⟨rfl, by simp⟩
  | n + 1, s, xs, t', s', h => by
    rw [timesT] at h
    obtain ⟨⟨v, t1⟩, s1, h1, h2⟩ := P.bind_ok h
    obtain ⟨⟨vs, t2⟩, s2, h3, h4⟩ := P.bind_ok h2
    cases h4
    obtain ⟨rfl, i1⟩ := hp _ _ _ _ h1
    obtain ⟨rfl, i2⟩ := timesT_all hp n _ _ _ _ h3
    exact ⟨rfl, by simpa using ⟨i1, i2⟩⟩

/-- One sequence takes 16 bytes, and `convert` leaves it as it is. -/
theorem seqT_atoms {heap : HeapFn} {p : DT → P (TVal × DT)} {t : DT} (hp : ∀ s v t' s', p t s = .ok ((v, t'), s') → t' = t ∧ Atom v)
    {s s' : S} {v : TVal} {t' : DT} (h : seqT heap p t s = .ok ((v, t'), s')) :
    t' = t ∧ s.rem.length = s'.rem.length + 16 ∧ convertT v = v := by
  rw [seqT] at h
  obtain ⟨⟨len, addr, idx⟩, s1, h1, h⟩ := P.bind_ok h
  have h16 := Takes.readDescriptor _ _ _ h1
  simp only at h
  split at h
  · obtain ⟨⟨w, t1⟩, s2, h2, k⟩ := P.bind_ok h
    obtain ⟨i2, rfl⟩ := lift_inv h2
    obtain ⟨s3, j2⟩ := onBytes_inv i2
    obtain ⟨rfl, hw⟩ := hp _ _ _ _ j2
    simp only at k
    split at k
    · cases k
    · cases k
      exact ⟨rfl, h16, convertT_none hw⟩
  · obtain ⟨b, s2, h2, h⟩ := P.bind_ok h
    obtain ⟨h2, rfl⟩ := lift_inv h2
    cases b with
    | none => cases h
    | some b =>
      simp only at h
      obtain ⟨⟨xs, t1⟩, s3, h3, h⟩ := P.bind_ok h
      obtain ⟨i3, rfl⟩ := lift_inv h3
      obtain ⟨s4, j3⟩ := onBytes_inv i3
      obtain ⟨rfl, hx⟩ := timesT_all hp _ _ _ _ _ j3
      cases xs with
      | nil => cases h
      | cons x xs =>
        simp only at h
        split at h
        · rename_i hs
          cases h
          exact ⟨rfl, h16, convertT_fix (fun y hy => (hx y hy).1) hs⟩
        · cases h

theorem seqsT_atoms {heap : HeapFn} {p : DT → P (TVal × DT)} {t : DT} (hp : ∀ s v t' s', p t s = .ok ((v, t'), s') → t' = t ∧ Atom v) :
    ∀ (dims : List Nat) {s s' : S} {v : TVal} {t' : DT}, seqsT heap p dims t s = .ok ((v, t'), s') →
    t' = t ∧ s.rem.length = s'.rem.length + prod dims * 16 ∧ convertT v = v
  | [], s, s', v, t', h => by rw [prod, Nat.one_mul]; exact seqT_atoms hp h
  | d :: ds, s, s', v, t', h => by
    rw [seqsT] at h
    obtain ⟨⟨xs, t1⟩, s1, h1, h⟩ := P.bind_ok h
    have el : Elem t (prod ds * 16) (seqsT heap p ds) := fun s v t' s' h =>
      ⟨(seqsT_atoms hp ds h).1, (seqsT_atoms hp ds h).2.1⟩
    obtain ⟨rfl, h2, -⟩ := el.times d _ _ _ _ h1
    obtain ⟨-, h3⟩ := timesT_all (Q := fun v => convertT v = v)
      (fun s v t' s' h => ⟨(seqsT_atoms hp ds h).1, (seqsT_atoms hp ds h).2.2⟩) d _ _ _ _ h1
    cases xs with
    | nil => cases h
    | cons x xs =>
      simp only at h
      split at h
      · rename_i hs
        cases h
        exact ⟨rfl, by rw [prod, Nat.mul_assoc]; exact h2, convertT_fix h3 hs⟩
      · cases h

/-- Some elements of a list whose elements have one type. -/
theorem sameTypes_part {x : TVal} {xs : List TVal} (hs : sameTypes x.ty xs = true) {ys : List TVal} (hsub : ∀ y ∈ ys, y ∈ x :: xs)
    {y : TVal} {zs : List TVal} (hy : ys = y :: zs) : y.ty = x.ty ∧ sameTypes y.ty zs = true := by
  rw [sameTypes, Bool.and_eq_true, List.all_eq_true] at hs
  have key : ∀ z ∈ x :: xs, z.ty = x.ty := by
    intro z hz
    rcases List.mem_cons.1 hz with rfl | hz
    · rfl
    · exact eq_of_beq (hs.2 z hz)
  have h1 : y.ty = x.ty := key y (hsub y (by rw [hy]; exact List.mem_cons_self))
  refine ⟨h1, ?_⟩
  rw [sameTypes, Bool.and_eq_true, List.all_eq_true, h1]
  refine ⟨hs.1, fun z hz => ?_⟩
  rw [key z (hsub z (by rw [hy]; exact List.mem_cons_of_mem _ hz))]
  exact beq_self_eq_true _

theorem seqsT_part {heap : HeapFn} {p : DT → P (TVal × DT)} {t : DT} (hp : ∀ s v t' s', p t s = .ok ((v, t'), s') → t' = t ∧ Atom v)
    {d b e : Nat} {ds : List Nat} (h1 : b < e) (h2 : e ≤ d) {B rest : Bytes} {pos : Nat} {v : TVal} {t' : DT} {s' : S}
    (hB : B.length = d * (prod ds * 16)) (h : seqsT heap p (d :: ds) t ⟨pos, B ++ rest⟩ = .ok ((v, t'), s')) :
    ∃ s2, seqsT heap p ((e - b) :: ds) t ⟨0, (B.drop (b * (prod ds * 16))).take ((e - b) * (prod ds * 16))⟩ =
      .ok ((sliceV b e v, t), s2) := by
  rw [seqsT] at h ⊢
  obtain ⟨⟨xs, t1⟩, s1, g1, g2⟩ := P.bind_ok h
  have el : Elem t (prod ds * 16) (seqsT heap p ds) := fun s v t' s' h =>
    ⟨(seqsT_atoms hp ds h).1, (seqsT_atoms hp ds h).2.1⟩
  obtain ⟨s2, h3⟩ := timesT_part (fun t => Free.seqsT ds t) el (by omega : b ≤ e) h2 hB g1
  obtain ⟨-, -, hlen⟩ := el.times _ _ _ _ _ g1
  cases xs with
  | nil => cases g2
  | cons x xs =>
    simp only at g2
    split at g2
    · rename_i hs
      cases g2
      have hne : ((x :: xs).drop b).take (e - b) ≠ [] := by
        intro h0
        have := congrArg List.length h0
        rw [List.length_take, List.length_drop, hlen, List.length_nil] at this
        omega
      obtain ⟨y, zs, hy⟩ := List.exists_cons_of_ne_nil hne
      obtain ⟨hty, hsz⟩ := sameTypes_part hs (fun z hz => List.mem_of_mem_drop (List.mem_of_mem_take hz)) hy
      refine ⟨s2, ?_⟩
      rw [bind_at h3, hy]
      simp only
      rw [if_pos hsz, sliceV, hy, hty]
      rfl
    · cases g2

/-- Rows of an array are in the bytes for them. -/
theorem allocT_part (cast : DT → Res Unit) (heap : HeapFn) : ∀ (fuel : Nat) (dt : DT) (d : Nat) (ds : List Nat),
    Keeps dt → Rowwise dt → ∀ {b e : Nat}, (IsSeq dt → b < e) → b ≤ e → e ≤ d → ∀ {B rest : Bytes} {pos : Nat} {v : TVal} {t' : DT} {s' : S},
    B.length = d * (prod ds * dt.len) → allocT cast heap fuel dt (d :: ds) ⟨pos, B ++ rest⟩ = .ok ((v, t'), s') →
    ∃ t2 s2, allocT cast heap fuel dt ((e - b) :: ds)
      ⟨0, (B.drop (b * (prod ds * dt.len))).take ((e - b) * (prod ds * dt.len))⟩ = .ok ((sliceV b e v, t2), s2)
  | 0, dt, d, ds, hk, hr, b, e, hne, h1, h2, B, rest, pos, v, t', s', hB, h => by cases h
  | fuel + 1, dt, d, ds, hk, hr, b, e, hne, h1, h2, B, rest, pos, v, t', s', hB, h => by
    rw [allocT.eq_def] at h ⊢
    cases dt with
    | fixed len sg be =>
      simp only at h ⊢
      rcases hn : numKind (.fixed len sg be) with _ | ⟨k, be'⟩
      · rw [hn] at h; cases h
      · rw [hn] at h
        simp only at h ⊢
        have hl : k.size = (DT.fixed len sg be).len := by rw [numKind_inv hn, len_stored]
        obtain ⟨s2, h3⟩ := arrT_part (fun t => (Free.numT _ _).still t) ((Takes.numT k be').still _) h1 h2 (by rw [hl]; exact hB) h
        rw [hl] at h3
        exact ⟨_, s2, h3⟩
    | float len be =>
      simp only at h ⊢
      rcases hn : numKind (.float len be) with _ | ⟨k, be'⟩
      · rw [hn] at h; cases h
      · rw [hn] at h
        simp only at h ⊢
        have hl : k.size = (DT.float len be).len := by rw [numKind_inv hn, len_stored]
        obtain ⟨s2, h3⟩ := arrT_part (fun t => (Free.numT _ _).still t) ((Takes.numT k be').still _) h1 h2 (by rw [hl]; exact hB) h
        rw [hl] at h3
        exact ⟨_, s2, h3⟩
    | time n => exact hr.elim
    | str len =>
      simp only at h ⊢
      have hn : len ≠ 1 := hr
      rw [if_neg hn] at h ⊢
      obtain ⟨s2, h3⟩ := arrT_part (fun t => (Free.fixStrT _).still t) ((Takes.fixStrT len).still _) h1 h2 hB h
      exact ⟨_, s2, h3⟩
    | «opaque» len tg =>
      simp only at h ⊢
      obtain ⟨u, s1, g1, g2⟩ := P.bind_ok h
      obtain ⟨hc, rfl⟩ := lift_inv g1
      obtain ⟨s2, h3⟩ := arrT_part (fun t => (Free.opaqueT _).still t) ((Takes.opaqueT len).still _) h1 h2 hB g2
      rw [hc]
      exact ⟨_, s2, h3⟩
    | compound len ms ts =>
      simp only at h ⊢
      obtain ⟨u, s1, g1, g2⟩ := P.bind_ok h
      obtain ⟨hc, rfl⟩ := lift_inv g1
      obtain ⟨s2, h3⟩ := arrT_part (fun t => Free.compoundT (fun t dims => (Free.allocT cast heap fuel t dims).loc) t)
        (compound_elem hk hc) h1 h2 hB g2
      rw [hc]
      exact ⟨_, s2, h3⟩
    | ref n =>
      simp only at h ⊢
      have hn : n = 8 := hr
      subst hn
      obtain ⟨s2, h3⟩ := arrT_part (fun t => (Free.numT _ _).still t) ((Takes.numT .u64 false).still _) h1 h2 hB h
      exact ⟨_, s2, h3⟩
    | enum len base names vals =>
      simp only at h ⊢
      rcases hn : numKind base with _ | ⟨k, be⟩
      · rw [hn] at h; cases h
      · rw [hn] at h
        simp only at h ⊢
        split at h
        · cases h
        · rename_i hfl
          have hl : k.size = (DT.enum len base names vals).len := by
            have : len = base.len := hr
            rw [DT.len, this, numKind_inv hn, len_stored]
          obtain ⟨⟨w, t1⟩, s1, g1, g2⟩ := P.bind_ok h
          cases g2
          obtain ⟨s2, h3⟩ := arrT_part (fun t => (Free.numT _ _).still t) ((Takes.numT k be).still _) h1 h2 (by rw [hl]; exact hB) g1
          rw [hl] at h3
          rw [if_neg hfl, bind_at h3]
          exact ⟨_, s2, rfl⟩
    | vlen len s el =>
      cases s with
      | false =>
        simp only at h ⊢
        obtain ⟨rfl, he⟩ := hr
        obtain ⟨u, s1, g1, g2⟩ := P.bind_ok h
        obtain ⟨hc, rfl⟩ := lift_inv g1
        obtain ⟨⟨w, t1⟩, s2, g3, g4⟩ := P.bind_ok g2
        cases g4
        have hp : ∀ s v t' s', allocT cast heap fuel el [] s = .ok ((v, t'), s') → t' = el ∧ Atom v :=
          fun s v t' s' h => allocT_single he h
        obtain ⟨s3, g5⟩ := seqsT_part hp (hne trivial) h2 hB g3
        have hw := (seqsT_atoms hp _ g3).2.2
        have hw2 := (seqsT_atoms hp _ g5).2.2
        rw [bind_at (s := ⟨0, _⟩) (a := ()) (s1 := ⟨0, _⟩) (by rw [hc]; rfl)]
        refine ⟨.vlen 16 false el, s3, ?_⟩
        have hl : (DT.vlen 16 false el).len = 16 := rfl
        rw [hl, bind_at g5]
        simp only [hw, hw2]
        rfl
      | true =>
        simp only at h ⊢
        have hn : len = 16 := hr
        subst hn
        obtain ⟨s2, h3⟩ := arrT_part (fun t => (Free.vlenStrT heap).still t) ((Takes.vlenStrT heap).still _) h1 h2 hB h
        exact ⟨_, s2, h3⟩
    | array len ad el =>
      simp only at h ⊢
      obtain ⟨hl, hr'⟩ := hr
      obtain ⟨⟨w, t1⟩, s1, g1, g2⟩ := P.bind_ok h
      cases g2
      have hw : prod (ds ++ ad) * el.len = prod ds * (DT.array len ad el).len := by
        rw [prod_append, Nat.mul_assoc, DT.len, hl]
      obtain ⟨t2, s2, h3⟩ := allocT_part cast heap fuel el d (ds ++ ad) hk hr' hne h1 h2 (by rw [hw]; exact hB) g1
      rw [hw] at h3
      rw [List.cons_append, bind_at h3]
      exact ⟨_, s2, rfl⟩

end Verif.H5
