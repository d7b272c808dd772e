import Verif.Spec.H5Declared
import Verif.Lemmas.H5Typed
import Verif.Lemmas.H5Object
/-!
Lemmas for values read from any HDF5 file.
-/
namespace Verif.H5

/-! ### Shapes and types -/

theorem Declared.loose {x : Bool} {dt : DT} {dims : List Nat} {v : TVal} (h : Declared x dt dims v) :
    Declared false dt dims v := by
  induction h with
  | num x be k bits h => exact .num _ be k bits h
  | ref x n a h => exact .ref _ n a h
  | time x n dims => exact .time _ n dims
  | str x n s h1 h2 => exact .str _ n s h1 h2
  | chars x d s h1 h2 => exact .chars _ d s h1 h2
  | blob x t b => exact .blob _ t b
  | enum x be k len ns vs dims v hk _ ih => exact .enum _ be k len ns vs dims v hk ih
  | vlenStr x len e s h => exact .vlenStr _ len e s h
  | seq x len e t xs h _ => exact .seq _ len e t xs h
  | compound x len ms ts vs hl _ ih => exact .compound _ len ms ts vs hl ih
  | array x len ad e dims v _ ih => exact .array _ len ad e dims v ih
  | rows x dt d ds t xs hb hl _ _ ih => exact .rows _ dt d ds t xs hb hl ih (by simp)

theorem convertTs_map : ∀ xs : List TVal, convertTs xs = xs.map convertT
  | [] => by rw [convertTs]; rfl
  | x :: xs => by rw [convertTs, convertTs_map xs]; rfl

/-- A slice that is converted has as many elements, and they are the same or converted. -/
theorem convertT_elems (t : TTy) (xs : List TVal) : ∃ t' ys, convertT (.slice t xs) = .slice t' ys ∧
    (ys = xs ∨ ys = xs.map convertT) := by
  cases xs with
  | nil => exact ⟨_, [], by rw [convertT]; rfl, .inl rfl⟩
  | cons x xs =>
    rw [convertT]
    split
    · exact ⟨_, _, rfl, .inr (by rw [convertTs_map]; rfl)⟩
    · exact ⟨_, _, rfl, .inl rfl⟩

theorem Declared.convert {y : Bool} {dt : DT} {dims : List Nat} {v : TVal} (h : Declared y dt dims v) :
    Declared false dt dims (convertT v) := by
  induction h with
  | num x be k bits h => exact .num _ be k bits h
  | ref x n a h => exact .ref _ n a h
  | time x n dims => exact .time _ n dims
  | str x n s h1 h2 => exact .str _ n s h1 h2
  | chars x d s h1 h2 => exact .chars _ d s h1 h2
  | blob x t b => exact .blob _ t b
  | enum x be k len ns vs dims v hk h _ => exact .enum _ be k len ns vs dims v hk h.loose
  | vlenStr x len e s h => exact .vlenStr _ len e s h
  | seq x len e t xs h ih =>
    obtain ⟨t', ys, hc, hy⟩ := convertT_elems t xs
    rw [hc]
    refine .seq _ len e t' ys ?_
    rcases hy with rfl | rfl
    · exact h
    · intro y hy
      obtain ⟨z, hz, rfl⟩ := List.mem_map.1 hy
      exact ih z hz
  | compound x len ms ts vs hl h _ =>
    exact .compound _ len ms ts vs hl fun i m t v h1 h2 h3 => (h i m t v h1 h2 h3).loose
  | array x len ad e dims v _ ih => exact .array _ len ad e dims _ ih
  | rows x dt d ds t xs hb hl h _ ih =>
    obtain ⟨t', ys, hc, hy⟩ := convertT_elems t xs
    rw [hc]
    refine .rows _ dt d ds t' ys hb ?_ ?_ (by simp)
    · rcases hy with rfl | rfl
      · exact hl
      · rw [List.length_map]; exact hl
    · rcases hy with rfl | rfl
      · exact fun y hy => (h y hy).loose
      · intro y hy
        obtain ⟨z, hz, rfl⟩ := List.mem_map.1 hy
        exact ih z hz

/-- For sequences `exact` says nothing more. -/
theorem Declared.ofSeq {len : Nat} {e : DT} : ∀ {dims : List Nat} {v : TVal}, Declared false (.vlen len false e) dims v →
    ∀ x, Declared x (.vlen len false e) dims v
  | [], v, h, x => by
    generalize hdt : DT.vlen len false e = dt at h
    cases h with
    | seq _ _ _ t xs h => exact .seq _ _ _ t xs h
    | num _ be k _ _ => cases k <;> cases hdt
    | _ => cases hdt
  | d :: ds, v, h, x => by
    generalize hdt : DT.vlen len false e = dt at h
    cases h with
    | time _ _ _ => cases hdt
    | chars _ _ _ _ _ => cases hdt
    | enum _ _ _ _ _ _ _ _ _ _ => cases hdt
    | array _ _ _ _ _ _ _ => cases hdt
    | rows _ _ _ _ t xs hb hl h ht =>
      subst hdt
      exact .rows _ _ _ _ t xs hb hl (fun y hy => (h y hy).ofSeq x) fun _ _ hn => absurd trivial hn

/-! ### What reading gives -/

theorem timesT_inv {p : DT → P (TVal × DT)} {q : TVal → Prop} {t : DT}
    (hp : ∀ s v t' s', p t s = .ok ((v, t'), s') → q v ∧ t' = t) :
    ∀ (n : Nat) (s s' : S) (xs : List TVal) (t' : DT), timesT p n t s = .ok ((xs, t'), s') →
      xs.length = n ∧ (∀ x ∈ xs, q x) ∧ t' = t
  | 0, s, s', xs, t', h => by
    cases h
    exact ⟨rfl, by simp, rfl⟩
  | n + 1, s, s', xs, t', h => by
    rw [timesT] at h
    obtain ⟨⟨v, t1⟩, s1, h1, h⟩ := P.bind_ok h
    obtain ⟨⟨vs, t2⟩, s2, h2, h⟩ := P.bind_ok h
    cases h
    obtain ⟨hv, rfl⟩ := hp _ _ _ _ h1
    obtain ⟨i1, i2, rfl⟩ := timesT_inv hp n _ _ _ _ h2
    refine ⟨by rw [List.length_cons, i1], ?_, rfl⟩
    intro x hx
    rcases List.mem_cons.1 hx with rfl | hx
    · exact hv
    · exact i2 x hx

theorem times_inv {α : Type} {p : P α} {q : α → Prop} (hp : ∀ s v s', p s = .ok (v, s') → q v) :
    ∀ (n : Nat) (s s' : S) (xs : List α), times p n s = .ok (xs, s') → xs.length = n ∧ ∀ x ∈ xs, q x
  | 0, s, s', xs, h => by
    cases h
    exact ⟨rfl, by simp⟩
  | n + 1, s, s', xs, h => by
    rw [times] at h
    obtain ⟨v, s1, h1, h⟩ := P.bind_ok h
    obtain ⟨vs, s2, h2, h⟩ := P.bind_ok h
    obtain ⟨i1, i2⟩ := times_inv hp n _ _ _ h2
    cases h
    refine ⟨by rw [List.length_cons, i1], ?_⟩
    intro x hx
    rcases List.mem_cons.1 hx with rfl | hx
    · exact hp _ _ _ h1
    · exact i2 x hx

theorem arrT_inv {base : TTy} {p : DT → P (TVal × DT)} {r : List Nat → TVal → Prop} {t : DT}
    (hp : ∀ s v t' s', p t s = .ok ((v, t'), s') → r [] v ∧ t' = t)
    (hr : ∀ d ds xs, xs.length = d → (∀ x ∈ xs, r ds x) → r (d :: ds) (.slice (nestT base ds) xs)) :
    ∀ (dims : List Nat) (s : S) (v : TVal) (t' : DT) (s' : S), arrT base p dims t s = .ok ((v, t'), s') → r dims v ∧ t' = t
  | [], s, v, t', s', h => hp _ _ _ _ h
  | d :: ds, s, v, t', s', h => by
    rw [arrT] at h
    obtain ⟨⟨xs, t1⟩, s1, h1, h⟩ := P.bind_ok h
    cases h
    obtain ⟨i1, i2, rfl⟩ := timesT_inv (arrT_inv hp hr ds) d _ _ _ _ h1
    exact ⟨hr d ds xs i1 i2, rfl⟩

theorem still_inv {p : P TVal} {t t' : DT} {s s' : S} {v : TVal} (h : still p t s = .ok ((v, t'), s')) :
    p s = .ok (v, s') ∧ t' = t := by
  obtain ⟨w, s1, h1, h⟩ := P.bind_ok h
  cases h
  exact ⟨h1, rfl⟩

theorem rdN_inv {n : Nat} {s s' : S} {b : Bytes} (h : rdN n s = .ok (b, s')) : b.length = n := by
  rw [rdN] at h
  split at h
  · rename_i hn
    cases h
    rw [List.length_take]
    omega
  · cases h

theorem leDec_lt' (b : Bytes) : leDec b < 256 ^ b.length := by
  induction b with
  | nil => simp [leDec]
  | cons x b ih =>
    have := x.toNat_lt
    simp only [leDec, List.length_cons, Nat.pow_succ]
    omega

theorem numT_inv {k : Kind} {be : Bool} {s s' : S} {v : TVal} (h : numT k be s = .ok (v, s')) :
    ∃ bits, bits < 256 ^ k.size ∧ v = .num k bits := by
  rw [numT] at h
  obtain ⟨w, s1, h1, h⟩ := P.bind_ok h
  rw [allocNum] at h1
  obtain ⟨b, s2, h2, h1⟩ := P.bind_ok h1
  cases h1
  cases h
  have hl := rdN_inv h2
  refine ⟨_, ?_, rfl⟩
  cases be with
  | false => rw [← hl]; exact leDec_lt' b
  | true =>
    have := leDec_lt' b.reverse
    rw [List.length_reverse, hl] at this
    rwa [show leDec b.reverse = beDec b by simp [beDec]] at this

theorem getString_facts (b : Bytes) : (getString b).length ≤ b.length ∧ (0 : UInt8) ∉ getString b := by
  refine ⟨(List.takeWhile_prefix _).length_le, fun h => ?_⟩
  have : ∀ (l : Bytes), ∀ x ∈ l.takeWhile (· != 0), x ≠ 0 := by
    intro l
    induction l with
    | nil => simp
    | cons a l ih =>
      rw [List.takeWhile_cons]
      split
      · rename_i ha
        intro x hx
        rcases List.mem_cons.1 hx with rfl | hx
        · simpa using ha
        · exact ih x hx
      · simp
  exact this b 0 h rfl

theorem fixStrT_inv {n : Nat} {s s' : S} {v : TVal} (h : fixStrT n s = .ok (v, s')) :
    ∃ t : Bytes, t.length ≤ n ∧ (0 : UInt8) ∉ t ∧ v = .str t := by
  rw [fixStrT] at h
  obtain ⟨w, s1, h1, h⟩ := P.bind_ok h
  rw [allocFixStr] at h1
  obtain ⟨b, s2, h2, h1⟩ := P.bind_ok h1
  cases h1
  cases h
  have := getString_facts b
  rw [rdN_inv h2] at this
  exact ⟨_, this.1, this.2, rfl⟩

theorem vlenStrT_inv {heap : HeapFn} {s s' : S} {v : TVal} (h : vlenStrT heap s = .ok (v, s')) :
    ∃ t : Bytes, (0 : UInt8) ∉ t ∧ v = .str t := by
  rw [vlenStrT] at h
  obtain ⟨w, s1, h1, h⟩ := P.bind_ok h
  rw [allocVlenStr] at h1
  obtain ⟨⟨len, addr, idx⟩, s2, h2, h1⟩ := P.bind_ok h1
  simp only at h1
  split at h1
  · cases h1
    cases h
    exact ⟨[], by simp, rfl⟩
  · obtain ⟨b, s3, h3, h1⟩ := P.bind_ok h1
    cases h1
    cases h
    exact ⟨_, (getString_facts _).2, rfl⟩

theorem opaqueT_inv {n : Nat} {s s' : S} {v : TVal} (h : opaqueT n s = .ok (v, s')) :
    ∃ b : Bytes, b.length = n ∧ v = .opaque b := by
  rw [opaqueT] at h
  obtain ⟨b, s1, h1, h⟩ := P.bind_ok h
  cases h
  exact ⟨b, rdN_inv h1, rfl⟩

theorem charsT_inv (x : Bool) : ∀ (dims : List Nat) (s : S) (v : TVal) (s' : S), charsT dims s = .ok (v, s') →
    Declared x (.str 1) dims v
  | [], s, v, s', h => by
    obtain ⟨t, h1, h2, rfl⟩ := fixStrT_inv (by simpa [charsT] using h)
    exact .str _ 1 t h1 h2
  | [d], s, v, s', h => by
    obtain ⟨t, h1, h2, rfl⟩ := fixStrT_inv (by simpa [charsT] using h)
    exact .chars _ d t h1 h2
  | [d, e], s, v, s', h => by
    rw [charsT] at h
    split at h
    · obtain ⟨b, s1, h1, h⟩ := P.bind_ok h
      cases h
    · rename_i hd
      cases h
      exact .rows _ _ _ _ _ [] (.inr ⟨rfl, by simp⟩) (by simp; omega) (by simp) fun _ hb => absurd rfl hb
  | d :: e :: f :: ds, s, v, s', h => by
    rw [charsT] at h
    · obtain ⟨xs, s1, h1, h⟩ := P.bind_ok h
      cases h
      obtain ⟨i1, i2⟩ := times_inv (charsT_inv x (e :: f :: ds)) d _ _ _ h1
      exact .rows _ _ _ _ _ xs (.inr ⟨rfl, by simp⟩) i1 i2 fun _ hb => absurd rfl hb
    · simp
    · simp

theorem numKind_inv {dt : DT} {k : Kind} {be : Bool} (h : numKind dt = some (k, be)) : dt = storedNum be k := by
  unfold numKind at h
  split at h
  case h_7 => cases h
  all_goals
    simp only [Option.some.injEq, Prod.mk.injEq] at h
    obtain ⟨rfl, rfl⟩ := h
    first
      | rfl
      | (rename_i s be; cases s <;> rfl)
      | (rename_i s; cases s <;> rfl)

theorem stored_byElement (be : Bool) (k : Kind) : ByElement (storedNum be k) ∧ ¬ IsSeq (storedNum be k) := by
  cases k <;> simp [storedNum, ByElement, IsSeq]

/-- Arrays of numbers. -/
theorem nums_inv {be : Bool} {k : Kind} {x : Bool} {t t' : DT} {dims : List Nat} {s s' : S} {v : TVal}
    (h : arrT (.num k) (still (numT k be)) dims t s = .ok ((v, t'), s')) :
    Declared x (storedNum be k) dims v ∧ t' = t := by
  refine arrT_inv (r := fun dims v => Declared x (storedNum be k) dims v) ?_ ?_ dims s v t' s' h
  · intro s v t' s' h
    obtain ⟨h1, rfl⟩ := still_inv h
    obtain ⟨bits, hb, rfl⟩ := numT_inv h1
    exact ⟨.num _ be k bits hb, rfl⟩
  · intro d ds xs hl hx
    exact .rows _ _ d ds _ xs (.inl (stored_byElement be k).1) hl hx fun _ _ _ => by rw [nestT_eq, goTy_stored]

/-- Arrays of elements that are read one after the other. -/
theorem elems_inv {base : TTy} {p : DT → P (TVal × DT)} {dt dt' : DT} (hb : ByElement dt)
    (hg : ∀ ds, goTy dt ds = sliceTy base ds)
    (hp : ∀ s v t' s', p dt s = .ok ((v, t'), s') → Declared true dt [] v ∧ t' = dt)
    {dims : List Nat} {s s' : S} {v : TVal} (h : arrT base p dims dt s = .ok ((v, dt'), s')) :
    Declared true dt dims v ∧ dt' = dt := by
  refine arrT_inv (r := fun dims v => Declared true dt dims v) hp ?_ dims s v dt' s' h
  intro d ds xs hl hx
  exact .rows _ _ d ds _ xs (.inl hb) hl hx fun _ _ _ => by rw [nestT_eq, hg]

theorem onBytes_inv {α : Type} {b : Bytes} {p : P α} {a : α} (h : onBytes b p = .ok a) : ∃ s', p ⟨0, b⟩ = .ok (a, s') := by
  unfold onBytes at h
  split at h
  · rename_i a' s' e
    cases h
    exact ⟨s', e⟩
  · cases h
  · cases h

theorem lift_inv {α : Type} {r : Res α} {s s' : S} {a : α} (h : P.lift r s = .ok (a, s')) : r = .ok a ∧ s' = s := by
  cases r with
  | ok b => cases h; exact ⟨rfl, rfl⟩
  | err e => cases h
  | panic => cases h

theorem seqT_inv {heap : HeapFn} {p : DT → P (TVal × DT)} {e e' : DT} {len : Nat}
    (hp : ∀ s v t' s', p e s = .ok ((v, t'), s') → Declared true e [] v ∧ t' = e)
    {s s' : S} {v : TVal} (h : seqT heap p e s = .ok ((v, e'), s')) :
    Declared false (.vlen len false e) [] v ∧ e' = e := by
  rw [seqT] at h
  obtain ⟨⟨n, addr, idx⟩, s1, h1, h⟩ := P.bind_ok h
  simp only at h
  split at h
  · obtain ⟨⟨w, e1⟩, s2, h2, h'⟩ := P.bind_ok h
    obtain ⟨h2, -⟩ := lift_inv h2
    obtain ⟨s3, h2⟩ := onBytes_inv h2
    have he := (hp _ _ _ _ h2).2
    simp only at h'
    split at h'
    · cases h'
    · cases h'
      exact ⟨.seq _ _ _ _ [] (by simp), he⟩
  · obtain ⟨b, s2, h2, h⟩ := P.bind_ok h
    cases b with
    | none => cases h
    | some b =>
      simp only at h
      obtain ⟨⟨xs, e1⟩, s3, h3, h⟩ := P.bind_ok h
      obtain ⟨h3, -⟩ := lift_inv h3
      obtain ⟨s4, h3⟩ := onBytes_inv h3
      obtain ⟨i1, i2, rfl⟩ := timesT_inv (q := fun v => Declared true e [] v) hp n _ _ _ _ h3
      cases xs with
      | nil => cases h
      | cons x xs =>
        simp only at h
        split at h
        · cases h
          exact ⟨.seq _ _ _ _ _ fun y hy => (i2 y hy).loose, rfl⟩
        · cases h

theorem seqsT_inv {heap : HeapFn} {p : DT → P (TVal × DT)} {e : DT} (len : Nat)
    (hp : ∀ s v t' s', p e s = .ok ((v, t'), s') → Declared true e [] v ∧ t' = e) :
    ∀ (dims : List Nat) (s : S) (v : TVal) (e' : DT) (s' : S), seqsT heap p dims e s = .ok ((v, e'), s') →
      Declared false (.vlen len false e) dims v ∧ e' = e
  | [], s, v, e', s', h => seqT_inv hp (by simpa [seqsT] using h)
  | d :: ds, s, v, e', s', h => by
    rw [seqsT] at h
    obtain ⟨⟨xs, e1⟩, s1, h1, h⟩ := P.bind_ok h
    obtain ⟨i1, i2, rfl⟩ := timesT_inv (q := fun v => Declared false (.vlen len false e) ds v)
      (fun s v t' s' h => seqsT_inv len hp ds s v t' s' h) d _ _ _ _ h1
    cases xs with
    | nil => cases h
    | cons x xs =>
      simp only at h
      split at h
      · cases h
        exact ⟨.rows _ _ d ds _ _ (.inl trivial) i1 i2 (by simp), rfl⟩
      · cases h

theorem sub_inv {α : Type} {n : Nat} {p : P α} {s s' : S} {a : α} (h : sub n p s = .ok (a, s')) :
    ∃ s1 s2, p s1 = .ok (a, s2) := by
  unfold sub at h
  split at h
  · rename_i a' t e
    cases h
    exact ⟨_, _, e⟩
  · cases h
  · cases h

/-- After a step that may be left out. -/
theorem P.jp_ok {β : Type} {c : Prop} [Decidable c] {q : P Unit} {f : P β} {s : S} {x : β × S}
    (h : (if c then (q >>= fun _ => f) else f) s = .ok x) : ∃ s', f s' = .ok x := by
  split at h
  · obtain ⟨_, s1, -, h⟩ := P.bind_ok h
    exact ⟨s1, h⟩
  · exact ⟨s, h⟩

theorem membersT_inv {p : DT → List Nat → P (TVal × DT)} : ∀ (ms : List (Bytes × Nat × Option (List Nat))) (ts : List DT),
    ms.length = ts.length →
    (∀ x ∈ ms.zip ts, ∀ s v t' s', p x.2 (x.1.2.2.getD []) s = .ok ((v, t'), s') →
      Declared true x.2 (x.1.2.2.getD []) v ∧ t' = x.2) →
    ∀ (s s' : S) (vs : List TVal) (ts' : List DT), membersT p ms ts s = .ok ((vs, ts'), s') →
      vs.length = ts.length ∧ ts' = ts ∧
      ∀ (i : Nat) (m : Bytes × Nat × Option (List Nat)) (t : DT) (v : TVal), ms[i]? = some m → ts[i]? = some t →
        vs[i]? = some v → Declared true t (m.2.2.getD []) v
  | [], [], _, _, s, s', vs, ts', h => by
    rw [membersT] at h
    · cases h
      exact ⟨rfl, rfl, by simp⟩
    · simp
  | [], _ :: _, hl, _, _, _, _, _, _ => by simp at hl
  | _ :: _, [], hl, _, _, _, _, _, _ => by simp at hl
  | m :: ms, t :: ts, hl, hp, s, s', vs, ts', h => by
    rw [membersT] at h
    obtain ⟨pos, s1, -, h⟩ := P.bind_ok h
    simp only at h
    obtain ⟨s2, h⟩ := P.jp_ok h
    obtain ⟨⟨v, t1⟩, s3, h1, h⟩ := P.bind_ok h
    obtain ⟨⟨vs1, ts1⟩, s4, h2, h⟩ := P.bind_ok h
    cases h
    obtain ⟨s5, s6, h1⟩ := sub_inv h1
    obtain ⟨hv, rfl⟩ := hp (m, t) (by simp) _ _ _ _ h1
    obtain ⟨i1, rfl, i3⟩ := membersT_inv ms ts (by simpa using hl) (fun x hx => hp x (by simp [hx])) _ _ _ _ h2
    refine ⟨by simp [i1], rfl, ?_⟩
    intro i m' t' v' hm ht hv'
    cases i with
    | zero =>
      simp only [List.getElem?_cons_zero, Option.some.injEq] at hm ht hv'
      subst hm ht hv'
      exact hv
    | succ i =>
      simp only [List.getElem?_cons_succ] at hm ht hv'
      exact i3 i m' t' v' hm ht hv'

theorem keepsAll_mem {ts : List DT} (h : Keeps.KeepsAll ts) {t : DT} (ht : t ∈ ts) : Keeps t := by
  induction ts with
  | nil => simp at ht
  | cons a ts ih =>
    rw [Keeps.KeepsAll] at h
    rcases List.mem_cons.1 ht with rfl | ht
    · exact h.1
    · exact ih h.2 ht

/-- What is read has the type and the shape that are declared. -/
theorem allocT_inv (cast : DT → Res Unit) (heap : HeapFn) : ∀ (fuel : Nat) (dt : DT) (dims : List Nat), Keeps dt →
    ∀ (s : S) (v : TVal) (dt' : DT) (s' : S), allocT cast heap fuel dt dims s = .ok ((v, dt'), s') →
      Declared true dt dims v ∧ dt' = typeAfter dt dims
  | 0, dt, dims, hk, s, v, dt', s', h => by cases h
  | fuel + 1, dt, dims, hk, s, v, dt', s', h => by
    rw [allocT.eq_def] at h
    simp only at h
    cases dt with
    | fixed len sg be =>
      simp only at h
      rcases hn : numKind (.fixed len sg be) with _ | ⟨k, be'⟩
      · rw [hn] at h
        cases h
      · rw [hn] at h
        obtain ⟨h1, rfl⟩ := nums_inv (x := true) h
        rw [← numKind_inv hn] at h1
        exact ⟨h1, rfl⟩
    | float len be =>
      simp only at h
      rcases hn : numKind (.float len be) with _ | ⟨k, be'⟩
      · rw [hn] at h
        cases h
      · rw [hn] at h
        obtain ⟨h1, rfl⟩ := nums_inv (x := true) h
        rw [← numKind_inv hn] at h1
        exact ⟨h1, rfl⟩
    | time n =>
      cases h
      exact ⟨.time _ n dims, rfl⟩
    | str n =>
      simp only at h
      split at h
      · rename_i hn
        subst hn
        obtain ⟨h1, rfl⟩ := still_inv h
        exact ⟨charsT_inv true dims _ _ _ h1, rfl⟩
      · rename_i hn
        obtain ⟨h1, rfl⟩ := elems_inv (dt := .str n) (by simpa [ByElement] using hn) (fun ds => by simp [goTy, hn]) (by
          intro s v t' s' h
          obtain ⟨h1, rfl⟩ := still_inv h
          obtain ⟨t, i1, i2, rfl⟩ := fixStrT_inv h1
          exact ⟨.str _ n t i1 i2, rfl⟩) h
        exact ⟨h1, rfl⟩
    | «opaque» n tg =>
      simp only at h
      obtain ⟨_, s1, -, h⟩ := P.bind_ok h
      obtain ⟨h1, rfl⟩ := elems_inv (dt := .opaque n tg) trivial (fun ds => by simp [goTy]) (by
        intro s v t' s' h
        obtain ⟨h1, rfl⟩ := still_inv h
        obtain ⟨b, rfl, rfl⟩ := opaqueT_inv h1
        exact ⟨.blob _ tg b, rfl⟩) h
      exact ⟨h1, rfl⟩
    | compound len ms ts =>
      simp only at h
      obtain ⟨_, s1, -, h⟩ := P.bind_ok h
      obtain ⟨k1, k2, k3⟩ := hk
      obtain ⟨h1, rfl⟩ := elems_inv (dt := .compound len ms ts) trivial (fun ds => by simp [goTy]) (by
        intro s v t' s' h
        rw [compoundT] at h
        obtain ⟨s1, s2, h⟩ := sub_inv h
        obtain ⟨⟨vs, ts'⟩, s3, h1, h⟩ := P.bind_ok h
        obtain ⟨pos, s4, -, h⟩ := P.bind_ok h
        simp only at h
        obtain ⟨s5, h⟩ := P.jp_ok h
        cases h
        obtain ⟨i1, rfl, i3⟩ := membersT_inv ms ts k1 (by
          intro x hx s v t' s' h
          obtain ⟨j1, j2⟩ := allocT_inv cast heap fuel x.2 _ (keepsAll_mem k3 (List.of_mem_zip hx).2) _ _ _ _ h
          exact ⟨j1, by rw [j2]; exact steady_after (k2 x hx)⟩) _ _ _ _ h1
        exact ⟨.compound _ len ms _ vs i1 i3, rfl⟩) h
      exact ⟨h1, rfl⟩
    | ref n =>
      simp only at h
      obtain ⟨h1, rfl⟩ := elems_inv (dt := .ref n) trivial (fun ds => by simp [goTy]) (by
        intro s v t' s' h
        obtain ⟨h1, rfl⟩ := still_inv h
        obtain ⟨bits, hb, rfl⟩ := numT_inv h1
        exact ⟨.ref _ n bits (by simpa [Kind.size] using hb), rfl⟩) h
      exact ⟨h1, rfl⟩
    | enum len base names vals =>
      simp only at h
      rcases hn : numKind base with _ | ⟨k, be⟩
      · rw [hn] at h
        cases h
      · rw [hn] at h
        simp only at h
        split at h
        · cases h
        · rename_i hf
          obtain ⟨⟨w, t1⟩, s1, h1, h⟩ := P.bind_ok h
          have h2 := (nums_inv (x := true) h1).1
          cases h
          have hb := numKind_inv hn
          subst hb
          exact ⟨.enum _ be k len names vals dims w (by simpa using hf) h2, rfl⟩
    | vlen len isStr e =>
      cases isStr with
      | true =>
        simp only at h
        obtain ⟨h1, rfl⟩ := elems_inv (dt := .vlen len true e) trivial (fun ds => by simp [goTy]) (by
          intro s v t' s' h
          obtain ⟨h1, rfl⟩ := still_inv h
          obtain ⟨t, i1, rfl⟩ := vlenStrT_inv h1
          exact ⟨.vlenStr _ len e t i1, rfl⟩) h
        exact ⟨h1, rfl⟩
      | false =>
        simp only at h
        obtain ⟨_, s1, -, h⟩ := P.bind_ok h
        obtain ⟨⟨w, e1⟩, s2, h1, h⟩ := P.bind_ok h
        cases h
        obtain ⟨k1, k2⟩ := hk
        obtain ⟨i1, rfl⟩ := seqsT_inv len (by
          intro s v t' s' h
          obtain ⟨j1, j2⟩ := allocT_inv cast heap fuel e [] k2 _ _ _ _ h
          exact ⟨j1, by rw [j2]; exact steady_after k1⟩) dims _ _ _ _ h1
        exact ⟨i1.convert.ofSeq true, rfl⟩
    | array len ad e =>
      simp only at h
      obtain ⟨⟨w, e1⟩, s2, h1, h⟩ := P.bind_ok h
      cases h
      obtain ⟨i1, rfl⟩ := allocT_inv cast heap fuel e (dims ++ ad) hk _ _ _ _ h1
      exact ⟨.array _ len ad e dims _ i1, by rw [typeAfter]⟩

/-! ### What calls leave behind in any file -/

theorem Steady.slice {dt : DT} {dims : List Nat} (h : Steady dt dims) (sl : Sl) : Steady dt (sliceDims dims sl) := by
  cases dt with
  | array len ad e =>
    obtain ⟨rfl, h⟩ := h
    refine ⟨?_, h⟩
    cases sl <;> rfl
  | _ => trivial

/-- The blocks that were found are found again. -/
theorem blocksOf_again {fuel : Nat} {file : Bytes} {i : Info} {dims : List Nat} {first last : Nat} {cached blocks : List DBlock}
    (h : blocksOf fuel file i dims first last cached = .ok blocks) :
    blocksOf fuel file i dims first last blocks = .ok blocks := by
  cases cached with
  | nil =>
    cases blocks with
    | nil => exact h
    | cons b bs => rfl
  | cons c cs =>
    cases h
    rfl

theorem blocksOf_flat {fuel : Nat} {file : Bytes} {i : Info} {dims : List Nat} {first last : Nat} {cached blocks : List DBlock}
    (hc : i.chunk = none) (h : blocksOf fuel file i dims first last cached = .ok blocks) : blocks = cached := by
  cases cached with
  | nil =>
    rw [blocksOf, hc] at h
    cases h
    rfl
  | cons c cs =>
    cases h
    rfl

theorem Res.bind_ok' {α β : Type} {r : Res α} {f : α → Res β} {b : β} (h : (r >>= f) = .ok b) :
    ∃ a, r = .ok a ∧ f a = .ok b := by
  cases r with
  | ok a => exact ⟨a, rfl, h⟩
  | err e => cases h
  | panic => cases h

theorem Res.bind_of' {α β : Type} {r : Res α} {f : α → Res β} {a : α} {b : β} (h : r = .ok a) (hf : f a = .ok b) :
    (r >>= f) = .ok b := by
  rw [h]
  exact hf

theorem recordBytes_again {inflate : Bytes → Res Bytes} {fuel : Nat} {file : Bytes} {i : Info} {dt : DT} {dims : List Nat}
    {cached blocks : List DBlock} {sl : Sl} {b : Bytes} {n : Nat}
    (h : recordBytes inflate fuel file i dt dims cached sl = .ok (b, n, blocks)) :
    recordBytes inflate fuel file i dt dims blocks sl = .ok (b, n, blocks) ∧ (i.chunk = none → blocks = cached) := by
  rw [recordBytes] at h ⊢
  obtain ⟨size, h1, h⟩ := Res.bind_ok' h
  by_cases hz : size = 0
  · rw [if_pos hz] at h
    cases h
    exact ⟨Res.bind_of' h1 (by rw [if_pos hz]; rfl), fun _ => rfl⟩
  · rw [if_neg hz] at h
    obtain ⟨lay, h2, h⟩ := Res.bind_ok' h
    simp only at h
    obtain ⟨bl, h3, h⟩ := Res.bind_ok' h
    obtain ⟨b', h4, h⟩ := Res.bind_ok' h
    cases h
    exact ⟨Res.bind_of' h1 (by
      rw [if_neg hz]
      exact Res.bind_of' h2 (Res.bind_of' (blocksOf_again h3) (Res.bind_of' h4 rfl))), fun hc => blocksOf_flat hc h3⟩

theorem dataBytes_again {inflate : Bytes → Res Bytes} {fuel : Nat} {file : Bytes} {i : Info} {dt : DT} {dims : List Nat}
    {cached blocks : List DBlock} {sl : Sl} {b : Bytes}
    (h : dataBytes inflate fuel file i dt dims cached sl = .ok (b, blocks)) :
    dataBytes inflate fuel file i dt dims blocks sl = .ok (b, blocks) ∧ (i.chunk = none → blocks = cached) := by
  rw [dataBytes] at h ⊢
  obtain ⟨sz, h1, h⟩ := Res.bind_ok' h
  obtain ⟨⟨b1, n, bl⟩, h2, h⟩ := Res.bind_ok' h
  obtain ⟨lay, h3, h⟩ := Res.bind_ok' h
  simp only at h
  obtain ⟨h2', h4⟩ := recordBytes_again h2
  have hbl : bl = blocks := by
    clear h1 h2 h2' h3 h4
    split at h <;> obtain ⟨b2, -, h⟩ := Res.bind_ok' h <;> split at h <;> obtain ⟨b3, -, h⟩ := Res.bind_ok' h <;> split at h
    all_goals
      first
        | (cases h; rfl)
        | (split at h
           · cases h
           · cases h; rfl)
  subst hbl
  exact ⟨Res.bind_of' h1 (Res.bind_of' h2' (Res.bind_of' h3 h)), h4⟩

/-- The blocks of an object after opening. -/
def freshBlocks (k : Obj) : List DBlock := k.info.blocks.map Block.toD

/-- Reading an object. -/
theorem objDataT_inv {cast : DT → Res Unit} {s : Src} {k : Obj} {st st' : TSt} {v : TVal} {dt : DT} (hdt : st.dt = some dt)
    (hk : Keeps dt) (h : objDataT cast s k st = .ok (v, st')) :
    Declared true dt (sliceDims (k.info.dims.getD []) st.sl) v ∧ ∃ b blocks,
      dataBytes s.inflate s.fuel s.file k.info dt (k.info.dims.getD []) st.cached st.sl = .ok (b, blocks) ∧
      st' = ⟨st.sl, blocks, some (typeAfter dt (sliceDims (k.info.dims.getD []) st.sl))⟩ := by
  rw [objDataT, hdt] at h
  simp only at h
  split at h
  · cases h
  · cases h
  · rename_i x blocks dt' hg
    cases h
    rw [getDataT] at hg
    obtain ⟨⟨b, bl⟩, h1, hg⟩ := Res.bind_ok' hg
    obtain ⟨⟨w, t1⟩, h2, hg⟩ := Res.bind_ok' hg
    cases hg
    obtain ⟨s', h2⟩ := onBytes_inv h2
    obtain ⟨i1, rfl⟩ := allocT_inv cast (heapLookup s.file) _ dt _ hk _ _ _ _ h2
    exact ⟨i1, b, _, h1, rfl⟩

theorem of_put (t : TTab) (k : Obj) (st : TSt) : (t.put k st).of k = st := by
  simp [TTab.of, TTab.put]

theorem of_put_ne (t : TTab) {k x : Obj} (st : TSt) (h : x.info.addr ≠ k.info.addr) : (t.put k st).of x = t.of x := by
  have : (x.info.addr == k.info.addr) = false := by simpa using h
  simp only [TTab.of, TTab.put, List.lookup_cons, this]

/-- What is known of the state of the variable `k`, if nobody asked for a part of it (`A`), and if
nobody read all of it or it has no chunks (`B`). -/
structure Kept (s : Src) (k : Obj) (dt : DT) (A B : Prop) (st : TSt) : Prop where
  ty : st.dt = some dt
  whole : A → st.sl = none ∧ (st.cached = freshBlocks k ∨ ∃ b,
    dataBytes s.inflate s.fuel s.file k.info dt (k.info.dims.getD []) (freshBlocks k) none = .ok (b, st.cached))
  part : B → st.cached = freshBlocks k

theorem Kept.fresh {s : Src} {k : Obj} {dt : DT} {A B : Prop} (h : k.info.dt = some dt) : Kept s k dt A B (TSt.fresh k) :=
  ⟨h, fun _ => ⟨rfl, .inl rfl⟩, fun _ => rfl⟩

/-- A reading of the whole variable. -/
theorem Kept.read {cast : DT → Res Unit} {s : Src} {k : Obj} {dt : DT} {A B : Prop} {st st' : TSt} {v : TVal}
    (h : Kept s k dt A B st) (hk : Keeps dt) (hst : Steady dt (k.info.dims.getD [])) (hB : B → k.info.chunk = none)
    (hr : objDataT cast s k st = .ok (v, st')) : Kept s k dt A B st' := by
  obtain ⟨-, b, blocks, h1, rfl⟩ := objDataT_inv h.ty hk hr
  refine ⟨by rw [steady_after (hst.slice _)], fun a => ?_, fun hb => ?_⟩
  · obtain ⟨h2, h3⟩ := h.whole a
    refine ⟨h2, .inr ?_⟩
    rw [h2] at h1
    rcases h3 with h3 | ⟨b', h3⟩
    · rw [h3] at h1
      exact ⟨b, h1⟩
    · have := (dataBytes_again h3).1
      rw [this] at h1
      cases h1
      exact ⟨b, h3⟩
  · rw [(dataBytes_again h1).2 (hB hb)]
    exact h.part hb

/-- A reading of a part. -/
theorem Kept.cut {cast : DT → Res Unit} {s : Src} {k : Obj} {dt : DT} {A B : Prop} {st st' : TSt} {sl : Sl} {v : TVal}
    (h : Kept s k dt A B st) (hk : Keeps dt) (hst : Steady dt (k.info.dims.getD []))
    (hr : objDataT cast s k { st with sl := sl } = .ok (v, st')) : st'.dt = some dt := by
  obtain ⟨-, b, blocks, h1, rfl⟩ := objDataT_inv (st := { st with sl := sl }) h.ty hk hr
  simp only
  rw [steady_after (hst.slice _)]

theorem Kept.slice {s : Src} {k : Obj} {dt : DT} {A B : Prop} {st : TSt} {sl : Sl} {d : Option DT}
    (h : Kept s k dt A B st) (hA : ¬ A) (hd : d = some dt) : Kept s k dt A B ⟨sl, st.cached, d⟩ :=
  ⟨hd, fun a => absurd a hA, fun hb => h.part hb⟩

theorem Kept.step {ord : List Nat → List NamedType → List NamedType} {s : Src} {k : Obj} {dt : DT} {A B : Prop} {t : TTab}
    (c : AnyRead) (h : Kept s k dt A B (t.of k)) (hk : Keeps dt) (hst : Steady dt (k.info.dims.getD []))
    (hu : ∀ k', c.var = some k' → k'.info.addr = k.info.addr → k' = k)
    (hA : A → c.var = some k → c.isSlice = false)
    (hB : B → k.info.chunk = none ∨ k.info.dims.getD [] ≠ [] ∧ (c.var = some k → c.isSlice = true)) :
    Kept s k dt A B ((c.run ord s t).of k) := by
  cases c with
  | whole G name =>
    rw [AnyRead.run, Group.getVariableT]
    rcases hf : G.findVariable name with _ | k'
    · exact h
    simp only
    have hB' : k' = k → B → k.info.chunk = none := fun e b => by
      rcases hB b with h | ⟨-, h⟩
      · exact h
      · exact absurd (h (by rw [AnyRead.var, hf, e])) (by simp [AnyRead.isSlice])
    split
    · exact h
    · exact h
    all_goals
      rename_i st hr
      by_cases he : k.info.addr = k'.info.addr
      · have := hu k' hf he.symm
        subst this
        simp only
        rw [of_put]
        exact h.read hk hst (hB' rfl) hr
      · simp only
        rw [of_put_ne _ _ he]
        exact h
  | slice G name b e =>
    rw [AnyRead.run]
    rcases hf : G.findVariable name with _ | k'
    · exact h
    simp only
    by_cases he : k.info.addr = k'.info.addr
    · have := hu k' hf he.symm
      subst this
      have hA' : ¬ A := fun a => by
        have := hA a hf
        simp [AnyRead.isSlice] at this
      rw [Obj.getSliceT]
      split
      · rename_i hc
        have hB' : B → k'.info.chunk = none := fun b => (hB b).resolve_right fun x => x.1 hc.2.2
        split
        · exact h
        · exact h
        all_goals
          rename_i st hr
          simp only
          rw [of_put]
          exact h.read hk hst hB' hr
      · split
        · exact h
        · simp only
          split
          · rw [of_put]; exact h.slice hA' h.ty
          · rw [of_put]; exact h.slice hA' h.ty
          · rw [of_put]; exact h.slice hA' h.ty
          · rename_i st _ hr
            rw [of_put]
            exact h.slice hA' (h.cut (sl := some (b, e)) hk hst hr)
    · rw [Obj.getSliceT]
      split
      · split
        · exact h
        · exact h
        · rw [of_put_ne _ _ he]; exact h
        · rw [of_put_ne _ _ he]; exact h
      · split
        · exact h
        · simp only
          split <;> (rw [of_put_ne _ _ he]; exact h)

theorem Kept.all {ord : List Nat → List NamedType → List NamedType} {s : Src} {k : Obj} {dt : DT} {A B : Prop}
    (cs : List AnyRead) (hk : Keeps dt) (hst : Steady dt (k.info.dims.getD [])) :
    ∀ (t : TTab), Kept s k dt A B (t.of k) →
    (∀ c ∈ cs, ∀ k', c.var = some k' → k'.info.addr = k.info.addr → k' = k) →
    (A → ∀ c ∈ cs, c.var = some k → c.isSlice = false) →
    (B → k.info.chunk = none ∨ k.info.dims.getD [] ≠ [] ∧ ∀ c ∈ cs, c.var = some k → c.isSlice = true) →
    Kept s k dt A B ((cs.foldl (AnyRead.run ord s) t).of k) := by
  induction cs with
  | nil => intro t h _ _ _; exact h
  | cons c cs ih =>
    intro t h hu hA hB
    rw [List.foldl_cons]
    refine ih _ (h.step c hk hst (hu c (by simp)) (fun a => hA a c (by simp)) fun b => ?_)
      (fun c hc => hu c (by simp [hc])) (fun a c hc => hA a c (by simp [hc])) fun b => ?_
    · exact (hB b).imp id fun x => ⟨x.1, x.2 c (by simp)⟩
    · exact (hB b).imp id fun x => ⟨x.1, fun c hc => x.2 c (by simp [hc])⟩

end Verif.H5
