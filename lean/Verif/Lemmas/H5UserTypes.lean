import Verif.Model.H5TypedWriter
import Verif.Spec.H5UserTypes
import Verif.Lemmas.H5Value
/-!
Writing values of user-defined types.
-/
namespace Verif.H5
open Verif.Cdf

/-! ### Compounds -/

/-- The three lists go together. -/
inductive Trips {α β γ : Type} (R : α → β → γ → Prop) : List α → List β → List γ → Prop
  | nil : Trips R [] [] []
  | cons {x : α} {y : β} {z : γ} {xs : List α} {ys : List β} {zs : List γ} : R x y z → Trips R xs ys zs →
      Trips R (x :: xs) (y :: ys) (z :: zs)

/-- The bytes are one element. -/
structure OneShown (heap : HeapFn) (t : WTy) (v : TVal) (b : Bytes) : Prop where
  len : b.length = t.fieldSize
  size : t.dt.len = t.fieldSize
  shown : Shown heap t.dt [] b v

theorem packed_names (off : Nat) (ns : List Bytes) (ts : List WTy) (h : ns.length = ts.length) :
    (packed off ns ts).map (·.1) = ns := by
  induction ns generalizing off ts with
  | nil => cases ts <;> simp [packed]
  | cons n ns ih =>
    cases ts with
    | nil => simp at h
    | cons t ts => simp [packed, ih _ ts (by simpa using h)]

theorem packed_length (off : Nat) (ns : List Bytes) (ts : List WTy) (h : ns.length = ts.length) :
    (packed off ns ts).length = ts.length := by
  rw [← h, ← congrArg List.length (packed_names off ns ts h), List.length_map]

theorem dts_length (ts : List WTy) : (dts ts).length = ts.length := by
  induction ts with
  | nil => simp [dts]
  | cons t ts ih => simp [dts, ih]

theorem trips_len {heap : HeapFn} {ts : List WTy} {vs : List TVal} {bs : List Bytes}
    (h : Trips (OneShown heap) ts vs bs) : vs.length = ts.length ∧ bs.flatten.length = fieldSizes ts := by
  induction h with
  | nil => simp [fieldSizes]
  | cons hr _ ih =>
    obtain ⟨h1, h2⟩ := ih
    simp [fieldSizes, h1, ← h2, hr.len]

theorem trips_members {heap : HeapFn} {ts : List WTy} {vs : List TVal} {bs : List Bytes}
    (h : Trips (OneShown heap) ts vs bs) : ∀ (ns : List Bytes) (pre : Bytes) (i : Nat) (m : Bytes × Nat × Option (List Nat))
      (t : DT), ns.length = ts.length → (packed pre.length ns ts)[i]? = some m → (dts ts)[i]? = some t →
      m.2.2 = none ∧ m.2.1 + t.len ≤ (pre ++ bs.flatten).length ∧
        ∀ v, vs[i]? = some v → Shown heap t [] (((pre ++ bs.flatten).drop m.2.1).take t.len) v := by
  induction h with
  | nil => intro ns pre i m t hn hm ht; simp [dts] at ht
  | @cons wt y z ts vs bs hr _ ih =>
    intro ns pre i m t hn hm ht
    cases ns with
    | nil => simp at hn
    | cons n ns =>
      cases i with
      | zero =>
        simp only [packed, List.getElem?_cons_zero, Option.some.injEq] at hm
        simp only [dts, List.getElem?_cons_zero, Option.some.injEq] at ht
        subst hm ht
        have hz := hr.len
        have hs := hr.size
        refine ⟨rfl, by simp; omega, ?_⟩
        intro v hv
        simp only [List.getElem?_cons_zero, Option.some.injEq] at hv
        subst hv
        have e : ((pre ++ (z :: bs).flatten).drop pre.length).take wt.dt.len = z := by
          rw [List.drop_left, List.flatten_cons, hs, ← hz, List.take_left]
        simp only [e]
        exact hr.shown
      | succ i =>
        simp only [packed, List.getElem?_cons_succ] at hm
        simp only [dts, List.getElem?_cons_succ] at ht
        have h1 : pre.length + wt.fieldSize = (pre ++ z).length := by simp [hr.len]
        rw [h1] at hm
        have := ih ns (pre ++ z) i m t (by simpa using hn) hm ht
        simpa [List.append_assoc] using this

theorem shown_compound {heap : HeapFn} {ts : List WTy} {vs : List TVal} {bs : List Bytes} {ns : List Bytes}
    (h : Trips (OneShown heap) ts vs bs) (hn : ns.length = ts.length) :
    OneShown heap (.compound ns ts) (.compound ns vs) bs.flatten := by
  obtain ⟨h1, h2⟩ := trips_len h
  have hm := trips_members h ns []
  refine ⟨by rw [h2, WTy.fieldSize], by rw [WTy.dt, WTy.fieldSize, DT.len], ?_⟩
  have := Shown.compound (heap := heap) (packed 0 ns ts) (dts ts) vs bs.flatten
    (by rw [packed_length _ _ _ hn, dts_length]) (by rw [h1, dts_length])
    (by
      intro i m t e1 e2
      obtain ⟨e3, e4, -⟩ := hm i m t hn e1 e2
      simpa [e3, prod] using e4)
    (by
      intro i m t v e1 e2 e5
      obtain ⟨e3, -, e4⟩ := hm i m t hn e1 e2
      simpa [e3, prod] using e4 v e5)
  rw [packed_names _ _ _ hn] at this
  rw [WTy.dt, ← h2]
  exact this

/-! ### Elements without strings and sequences -/

theorem hostEnc_le (k n : Nat) : hostEnc false k n = leEnc k n := by simp [hostEnc]

theorem oneShown_num (heap : HeapFn) (k : Kind) (bits : Nat) (h : bits < 256 ^ k.size) :
    OneShown heap (.num k) (.num k bits) (leEnc k.size bits) := by
  refine ⟨by simp [WTy.fieldSize], by rw [dt_len_num, WTy.fieldSize], ?_⟩
  have := Shown.num (heap := heap) false k bits h
  rw [storedNum_num] at this
  exact this

theorem oneShown_enum (heap : HeapFn) (k : Kind) (bits : Nat) (ns : List Bytes) (vs : List Nat) (hf : k.isFloat = false)
    (h : bits < 256 ^ k.size) :
    OneShown heap (.enum k ns vs) (.enum (.num k bits) ns (vs.map (.num k))) (leEnc k.size bits) := by
  refine ⟨by simp [WTy.fieldSize], by rw [WTy.dt, DT.len, WTy.fieldSize], ?_⟩
  have := Shown.enum (heap := heap) false k ns vs [] _ _ hf (Shown.num (heap := heap) false k bits h)
  have e : storedNum false k = .fixed k.size k.signed false := by rw [storedNum_num, WTy.dt, hf]; rfl
  rw [e] at this
  exact this

theorem oneShown_blob (heap : HeapFn) (bs : Bytes) : OneShown heap (.opaque bs.length) (.opaque bs) bs :=
  ⟨by simp [WTy.fieldSize], by simp [WTy.dt, DT.len, WTy.fieldSize], by
    rw [WTy.dt]; exact Shown.blob false bs⟩

/-- The members one by one. -/
theorem trips_of_index {R : WTy → TVal → Bytes → Prop} {ts : List WTy} {vs : List TVal} (hl : vs.length = ts.length)
    (h : ∀ (i : Nat) (t : WTy) (v : TVal), ts[i]? = some t → vs[i]? = some v → ∃ b, R t v b) :
    ∃ bs, Trips R ts vs bs := by
  induction ts generalizing vs with
  | nil =>
    obtain rfl : vs = [] := by simpa using hl
    exact ⟨[], .nil⟩
  | cons t ts ih =>
    cases vs with
    | nil => simp at hl
    | cons v vs =>
      obtain ⟨b, hb⟩ := h 0 t v rfl rfl
      obtain ⟨bs, hbs⟩ := ih (by simpa using hl) fun i t v h1 h2 => h (i + 1) t v (by simpa using h1) (by simpa using h2)
      exact ⟨b :: bs, .cons hb hbs⟩

/-- An element whose bytes depend on nothing. -/
structure PlainT (t : WTy) (v : TVal) (b : Bytes) : Prop where
  shown : ∀ heap, OneShown heap t v b
  write : ∀ H rest, writeFieldT false H v rest = .ok (b, rest)
  elem : ∀ h, seqElemT false h v = .ok b
  strs : ∀ h, collectStringsT h v = h

theorem plain_fields {ts : List WTy} {vs : List TVal} {bs : List Bytes} (h : Trips PlainT ts vs bs) :
    (∀ heap, Trips (OneShown heap) ts vs bs) ∧ (∀ H rest, writeFieldsT false H vs rest = .ok (bs.flatten, rest)) ∧
      (∀ g, collectFieldStringsT g vs = g) := by
  induction h with
  | nil => exact ⟨fun _ => .nil, fun _ _ => rfl, fun _ => rfl⟩
  | @cons t v b ts vs bs hr _ ih =>
    obtain ⟨h1, h2, h3⟩ := ih
    refine ⟨fun heap => .cons (hr.shown heap) (h1 heap), fun H rest => ?_, fun g => ?_⟩
    · simp [writeFieldsT, hr.write, h2]
    · have : collectFieldStringT g v = g := by
        have e := hr.strs g
        have ew := hr.write none []
        cases v <;> first | (simp [writeFieldT] at ew; done) | (simp only [collectStringsT] at e; simp only [collectFieldStringT, collectStringsT]; exact e) | rfl
      rw [collectFieldStringsT, this, h3]

theorem item_plain {a b : Bool} {t : WTy} {v : TVal} (h : Item a b t v) (ha : a = false) (hb : b = false) :
    ∃ bs, PlainT t v bs := by
  induction h with
  | num k bits hk =>
    refine ⟨leEnc k.size bits, fun heap => oneShown_num heap k bits hk, fun H rest => ?_, fun g => ?_, fun g => ?_⟩
    · simp [writeFieldT, hostEnc_le]
    · simp [seqElemT, binWrite, hostEnc_le]
    · simp [collectStringsT]
  | blob bs =>
    exact ⟨bs, fun heap => oneShown_blob heap bs, fun H rest => rfl, fun g => rfl, fun g => rfl⟩
  | enum k bits ns vs hf hk =>
    refine ⟨leEnc k.size bits, fun heap => oneShown_enum heap k bits ns vs hf hk, fun H rest => ?_, fun g => ?_, fun g => ?_⟩
    · simp [writeFieldT, binWrite, hostEnc_le]
    · simp [seqElemT, binWrite, hostEnc_le]
    · simp [collectStringsT]
  | str s => cases ha
  | seq t xs => cases hb
  | compound ns ts vs hn hl hi ih =>
    obtain ⟨bs, hbs⟩ := trips_of_index hl fun i t v h1 h2 => ih i t v h1 h2 ha hb
    obtain ⟨h1, h2, h3⟩ := plain_fields hbs
    refine ⟨bs.flatten, fun heap => shown_compound (h1 heap) hn, fun H rest => ?_, fun g => ?_, fun g => ?_⟩
    · simp [writeFieldT, h2]
    · simp [seqElemT, h2]
    · simp [collectStringsT, h3]

/-- The elements of a sequence. -/
theorem plain_elems {t : WTy} {xs : List TVal} (h : ∀ x ∈ xs, Item false false t x) :
    ∃ bs : List Bytes, (∀ g, seqElemsT false g xs = .ok bs.flatten) ∧ Pairs (PlainT t) xs bs := by
  induction xs with
  | nil => exact ⟨[], fun _ => rfl, .nil⟩
  | cons x xs ih =>
    obtain ⟨b, hb⟩ := item_plain (h x (by simp)) rfl rfl
    obtain ⟨bs, h1, h2⟩ := ih fun y hy => h y (by simp [hy])
    exact ⟨b :: bs, fun g => by simp [seqElemsT, hb.elem, h1], .cons hb h2⟩

theorem plain_strsL {t : WTy} {xs : List TVal} {bs : List Bytes} (h : Pairs (PlainT t) xs bs) (g : Heap) :
    collectStringsLT g xs = g := by
  induction h with
  | nil => rfl
  | cons hr _ ih => rw [collectStringsLT, hr.strs, ih]

theorem plain_bytes {t : WTy} {xs : List TVal} {bs : List Bytes} (h : Pairs (PlainT t) xs bs) :
    bs.flatten.length = xs.length * t.fieldSize := by
  induction h with
  | nil => simp
  | cons hr _ ih =>
    have := (hr.shown fun _ _ => .panic).len
    simp [ih, this, Nat.add_mul]
    omega

theorem single_num (k : Kind) : Single (WTy.num k).dt := by
  rw [← storedNum_num]
  exact Single.num false k

/-- One sequence. -/
theorem oneShown_seq {heap : HeapFn} {H : Heap} (hh : HeapHas heap H) {t : WTy} {xs : List TVal} {bs : List Bytes}
    (h : Pairs (PlainT t) xs bs) (hp : 0 < t.fieldSize) (he : xs = [] → ∃ k, t = .num k) (hl : xs.length < 2 ^ 32)
    {i : Nat} (ho : H.objAt i bs.flatten) :
    OneShown heap (.vlenSeq t) (.slice (goTy t.dt []) xs) (descriptor xs.length H.addr i) := by
  have hlt := Heap.objAt_lt ho
  have hf := hh.few
  have hm : H.addr % 2 ^ 64 < 2 ^ 64 := Nat.mod_lt _ (by decide)
  refine ⟨by simp [descriptor_length, WTy.fieldSize], by simp [WTy.dt, DT.len, WTy.fieldSize], ?_⟩
  rw [descriptor_eq, WTy.dt]
  by_cases e : xs = []
  · subst e
    obtain ⟨k, rfl⟩ := he rfl
    exact Shown.emptySeq _ _ i hm (by omega) (single_num k)
  · have hb := plain_bytes h
    have hpos : 0 < xs.length := List.length_pos_iff.2 e
    have hne : bs.flatten ≠ [] := by
      intro hc
      rw [hc] at hb
      have := Nat.mul_pos hpos hp
      simp at hb
      omega
    have hlook := hh.look i _ ho
    rw [if_neg hne] at hlook
    have hbl := h.length
    have e1 : (List.range xs.length).flatMap (fun i => bs.getD i []) = bs.flatten := by
      rw [hbl, List.flatMap_def, map_getD_range]
    have := Shown.seq (heap := heap) t.dt (H.addr % 2 ^ 64) i xs.length (fun i => bs.getD i []) (fun i => xs.getD i .nil)
      [] hpos hl hm (by omega) (by rw [e1, List.append_nil]; exact hlook) (by
        intro j hj
        have hj2 : j < bs.length := by omega
        have := ((h.get j hj hj2).shown heap).shown
        simpa [hj, hj2] using this)
    rwa [map_getD_range] at this

/-! ### Elements -/

mutual
/-- The strings in an element. -/
def textsT : TVal → List Bytes
  | .str s => [s]
  | .compound _ vs => textsL vs
  | _ => []
/-- The members. -/
def textsL : List TVal → List Bytes
  | [] => []
  | v :: vs => textsT v ++ textsL vs
end

/-- What becomes of an element: its strings are in the heap, its sequences get there, and then its
bytes can be written. -/
structure StoredT (b : Bool) (t : WTy) (v : TVal) (h h2 : Heap) (is : List Nat) : Prop where
  collect : collectFieldVlenT false h v = .ok (h2, is)
  le : h.Le h2
  indices : h2.indices = h.indices
  none : b = false → h2 = h ∧ is = []
  write : ∀ H heap, h2.Le H → HeapHas heap H → (∀ s ∈ textsT v, H.HasStr s) → ∃ bs, OneShown heap t v bs ∧
    ∀ rest, writeFieldT false (some H) v (is ++ rest) = .ok (bs, rest)

theorem oneShown_str {heap : HeapFn} {H : Heap} (hh : HeapHas heap H) {s : Bytes} (h0 : 0 ∉ s) (hl : s.length < 2 ^ 32)
    {i : Nat} (ho : H.objAt i s) : OneShown heap .vlenStr (.str s) (descriptor s.length H.addr i) := by
  have hlt := Heap.objAt_lt ho
  have hf := hh.few
  have hm : H.addr % 2 ^ 64 < 2 ^ 64 := Nat.mod_lt _ (by decide)
  refine ⟨by simp [descriptor_length, WTy.fieldSize], by simp [WTy.dt, DT.len, WTy.fieldSize], ?_⟩
  rw [descriptor_eq, WTy.dt]
  by_cases e : s = []
  · subst e
    exact Shown.emptyStr (.str 1) _ i hm (by omega)
  · have hlook := hh.look i s ho
    rw [if_neg e] at hlook
    exact Shown.vlenStr (.str 1) _ i s (List.length_pos_iff.2 e) hl hm (by omega) h0 hlook

/-- The members of a compound. -/
theorem stored_fields {b : Bool} {ts : List WTy} {vs : List TVal} (hl : vs.length = ts.length)
    (hi : ∀ (i : Nat) (t : WTy) (v : TVal), ts[i]? = some t → vs[i]? = some v →
      ∀ h, ∃ h2 is, StoredT b t v h h2 is) (h : Heap) :
    ∃ h2 is, collectFieldVlensT false h vs = .ok (h2, is) ∧ h.Le h2 ∧ h2.indices = h.indices ∧
      (b = false → h2 = h ∧ is = []) ∧
      ∀ H heap, h2.Le H → HeapHas heap H → (∀ s ∈ textsL vs, H.HasStr s) → ∃ bs, Trips (OneShown heap) ts vs bs ∧
        ∀ rest, writeFieldsT false (some H) vs (is ++ rest) = .ok (bs.flatten, rest) := by
  induction ts generalizing vs h with
  | nil =>
    obtain rfl : vs = [] := by simpa using hl
    exact ⟨h, [], rfl, Heap.Le.refl h, rfl, fun _ => ⟨rfl, rfl⟩, fun H heap _ _ _ => ⟨[], .nil, fun rest => rfl⟩⟩
  | cons t ts ih =>
    cases vs with
    | nil => simp at hl
    | cons v vs =>
      obtain ⟨h1, is1, s⟩ := hi 0 t v rfl rfl h
      obtain ⟨h2, is2, e1, e2, e3, e4, e5⟩ := ih (vs := vs) (by simpa using hl)
        (fun i t v h1 h2 => hi (i + 1) t v (by simpa using h1) (by simpa using h2)) h1
      refine ⟨h2, is1 ++ is2, by simp [collectFieldVlensT, s.collect, e1], s.le.trans e2, by rw [e3, s.indices], ?_, ?_⟩
      · intro hb
        obtain ⟨rfl, rfl⟩ := s.none hb
        obtain ⟨rfl, rfl⟩ := e4 hb
        exact ⟨rfl, rfl⟩
      · intro H heap hle hh hs
        obtain ⟨b, g1, g2⟩ := s.write H heap (e2.trans hle) hh fun s' hs' => hs s' (by simp [textsL, hs'])
        obtain ⟨bs, g3, g4⟩ := e5 H heap hle hh fun s' hs' => hs s' (by simp [textsL, hs'])
        refine ⟨b :: bs, .cons g1 g3, fun rest => ?_⟩
        simp [writeFieldsT, List.append_assoc, g2, g4]

theorem item_stored {a b : Bool} {t : WTy} {v : TVal} (hi : Item a b t v) (h : Heap) :
    ∃ h2 is, StoredT b t v h h2 is := by
  induction hi generalizing h with
  | num k bits hk =>
    exact ⟨h, [], rfl, Heap.Le.refl h, rfl, fun _ => ⟨rfl, rfl⟩, fun H heap _ _ _ =>
      ⟨_, oneShown_num heap k bits hk, fun rest => by simp [writeFieldT, hostEnc_le]⟩⟩
  | blob bs =>
    exact ⟨h, [], rfl, Heap.Le.refl h, rfl, fun _ => ⟨rfl, rfl⟩, fun H heap _ _ _ =>
      ⟨_, oneShown_blob heap bs, fun rest => by simp [writeFieldT]⟩⟩
  | enum k bits ns vs hf hk =>
    exact ⟨h, [], by simp [collectFieldVlenT, collectAttrVlenT], Heap.Le.refl h, rfl, fun _ => ⟨rfl, rfl⟩, fun H heap _ _ _ =>
      ⟨_, oneShown_enum heap k bits ns vs hf hk, fun rest => by simp [writeFieldT, binWrite, hostEnc_le]⟩⟩
  | str s h0 hl =>
    refine ⟨h, [], rfl, Heap.Le.refl h, rfl, fun _ => ⟨rfl, rfl⟩, fun H heap _ hh hs => ?_⟩
    obtain ⟨i, h1, h2⟩ := hs s (by simp [textsT])
    exact ⟨_, oneShown_str hh h0 hl h2, fun rest => by simp [writeFieldT, h1]⟩
  | seq t xs hx hp he hl _ =>
    obtain ⟨bs, h1, h2⟩ := plain_elems hx
    refine ⟨(h.addObject bs.flatten).1, [(h.addObject bs.flatten).2], ?_, h.addObject_le _, rfl, ?_, ?_⟩
    · simp [collectFieldVlenT, serializeT, h1]
    · intro hb; cases hb
    · intro H heap hle hh _
      exact ⟨_, oneShown_seq hh h2 hp he hl (Heap.objAt_le hle (h.addObject_at _)), fun rest => by simp [writeFieldT]⟩
  | compound ns ts vs hn hl _ ih =>
    obtain ⟨h2, is, e1, e2, e3, e4, e5⟩ := stored_fields hl ih h
    refine ⟨h2, is, by simp [collectFieldVlenT, e1], e2, e3, e4, fun H heap hle hh hs => ?_⟩
    obtain ⟨bs, g1, g2⟩ := e5 H heap hle hh (by simpa [textsT] using hs)
    exact ⟨_, shown_compound g1 hn, fun rest => by simp [writeFieldT, g2]⟩

/-! ### Strings -/

theorem fields_strs {ts : List WTy} {vs : List TVal} (hl : vs.length = ts.length)
    (hi : ∀ (i : Nat) (t : WTy) (v : TVal), ts[i]? = some t → vs[i]? = some v → ∀ h : Heap, h.StrWF →
      (collectFieldStringT h v).StrWF ∧ h.Le (collectFieldStringT h v) ∧ ∀ s ∈ textsT v, (collectFieldStringT h v).HasStr s)
    (h : Heap) (hw : h.StrWF) :
    (collectFieldStringsT h vs).StrWF ∧ h.Le (collectFieldStringsT h vs) ∧
      ∀ s ∈ textsL vs, (collectFieldStringsT h vs).HasStr s := by
  induction ts generalizing vs h with
  | nil =>
    obtain rfl : vs = [] := by simpa using hl
    exact ⟨hw, Heap.Le.refl h, fun s hs => by simp [textsL] at hs⟩
  | cons t ts ih =>
    cases vs with
    | nil => simp at hl
    | cons v vs =>
      obtain ⟨h1, h2, h3⟩ := hi 0 t v rfl rfl h hw
      obtain ⟨g1, g2, g3⟩ := ih (vs := vs) (by simpa using hl)
        (fun i t v h1 h2 => hi (i + 1) t v (by simpa using h1) (by simpa using h2)) _ h1
      refine ⟨g1, h2.trans g2, fun s hs => ?_⟩
      simp only [textsL, List.mem_append] at hs
      rcases hs with hs | hs
      · exact (h3 s hs).le g2
      · exact g3 s hs

theorem item_strs {a b : Bool} {t : WTy} {v : TVal} (hi : Item a b t v) (h : Heap) (hw : h.StrWF) :
    (collectFieldStringT h v).StrWF ∧ h.Le (collectFieldStringT h v) ∧ ∀ s ∈ textsT v, (collectFieldStringT h v).HasStr s := by
  induction hi generalizing h with
  | num k bits hk => exact ⟨hw, Heap.Le.refl h, fun s hs => by simp [textsT] at hs⟩
  | blob bs => exact ⟨hw, Heap.Le.refl h, fun s hs => by simp [textsT] at hs⟩
  | enum k bits ns vs hf hk =>
    exact ⟨by simpa [collectFieldStringT, collectStringsT] using hw, by simpa [collectFieldStringT, collectStringsT] using Heap.Le.refl h,
      fun s hs => by simp [textsT] at hs⟩
  | str s h0 hl =>
    obtain ⟨h1, h2, h3⟩ := Heap.addString_ok h s hw
    exact ⟨h1, h2, fun s' hs => by simp [textsT] at hs; subst hs; exact h3⟩
  | seq t xs hx hp he hl _ =>
    obtain ⟨bs, h1, h2⟩ := plain_elems hx
    have e : collectFieldStringT h (.slice (goTy t.dt []) xs) = h := by
      simp only [collectFieldStringT]
      split
      · next hs =>
        cases h2 with
        | nil => rfl
        | @cons x y xs bs hr hrest =>
          exfalso
          have hx0 := hx x (by simp)
          revert hs
          cases hx0 with
          | num k bits => cases k <;> simp [goTy, sliceTy, WTy.dt, Kind.isFloat, kindTy, numKind, stripKinds, Kind.size, Kind.signed]
          | blob bs => simp [goTy, sliceTy, WTy.dt, stripKinds]
          | enum => simp [goTy, WTy.dt, stripKinds]
          | compound => simp [goTy, sliceTy, WTy.dt, stripKinds]
      · exact plain_strsL h2 h
    rw [e]
    exact ⟨hw, Heap.Le.refl h, fun s hs => by simp [textsT] at hs⟩
  | compound ns ts vs hn hl _ ih =>
    have := fields_strs hl ih h hw
    simpa [collectFieldStringT, textsT] using this

end Verif.H5
