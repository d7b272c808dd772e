import Verif.Lemmas.H5UserArrays
import Verif.Lemmas.H5Forms
import Verif.Lemmas.H5VarEnc
import Verif.Spec.H5File
/-!
Values of user-defined types in a file: what they need of the heap, and that they are stored.
-/
namespace Verif.H5
open Verif.Cdf

/-- What collecting these strings does to a heap. -/
structure StrStep (h h' : Heap) (ss : List Bytes) : Prop where
  wf : h'.StrWF
  le : h.Le h'
  len : h'.objects.length ≤ h.objects.length + ss.length
  keys : ∀ k i, h'.indices.get k = some i → h.indices.get k = some i ∨ k ∈ ss

theorem StrStep.refl {h : Heap} (hw : h.StrWF) (ss : List Bytes) : StrStep h h ss :=
  ⟨hw, Heap.Le.refl h, by omega, fun _ _ hk => .inl hk⟩

theorem StrStep.trans {a b c : Heap} {xs ys : List Bytes} (h1 : StrStep a b xs)
    (h2 : StrStep b c ys) : StrStep a c (xs ++ ys) := by
  refine ⟨h2.wf, h1.le.trans h2.le, ?_, ?_⟩
  · have := h1.len
    have := h2.len
    rw [List.length_append]
    omega
  · intro k i hk
    rcases h2.keys k i hk with h | h
    · rcases h1.keys k i h with h | h
      · exact .inl h
      · exact .inr (by simp [h])
    · exact .inr (by simp [h])

theorem StrStep.addString (h : Heap) (s : Bytes) (hw : h.StrWF) : StrStep h (h.addString s) [s] := by
  obtain ⟨h1, h2, -⟩ := Heap.addString_ok h s hw
  refine ⟨h1, h2, ?_, ?_⟩
  · unfold Heap.addString
    split <;> simp
  · intro k i
    unfold Heap.addString
    split
    · exact .inl
    · intro hk
      simp only [GoMap.get_set] at hk
      split at hk
      · rename_i e
        exact .inr (by simp [e])
      · exact .inl hk

mutual
theorem collectAllT_step (v : TVal) (h : Heap) (hw : h.StrWF) : StrStep h (collectAllT h v) (strsT v) := by
  match v with
  | .str s => exact StrStep.addString h s hw
  | .slice _ xs => exact collectAllsT_step xs h hw
  | .num .. | .opaque _ | .compound .. | .field .. | .enum .. | .nil => exact StrStep.refl hw _
theorem collectAllsT_step (xs : List TVal) (h : Heap) (hw : h.StrWF) : StrStep h (collectAllsT h xs) (strsTs xs) := by
  match xs with
  | [] => exact StrStep.refl hw _
  | x :: xs =>
    have h1 := collectAllT_step x h hw
    exact h1.trans (collectAllsT_step xs _ h1.wf)
end

mutual
theorem collectStringsT_step (v : TVal) (h : Heap) (hw : h.StrWF) : StrStep h (collectStringsT h v) (strsT v) := by
  match v with
  | .compound _ vs => exact collectFieldStringsT_step vs h hw
  | .enum v _ _ => exact collectStringsT_step v h hw
  | .slice t xs =>
    rw [collectStringsT]
    split
    · exact collectAllsT_step xs h hw
    · exact collectStringsLT_step xs h hw
  | .num .. | .opaque _ | .str _ | .field .. | .nil => exact StrStep.refl hw _
theorem collectFieldStringsT_step (vs : List TVal) (h : Heap) (hw : h.StrWF) :
    StrStep h (collectFieldStringsT h vs) (strsTs vs) := by
  match vs with
  | [] => exact StrStep.refl hw _
  | x :: xs =>
    have h1 := collectFieldStringT_step x h hw
    exact h1.trans (collectFieldStringsT_step xs _ h1.wf)
theorem collectFieldStringT_step (v : TVal) (h : Heap) (hw : h.StrWF) : StrStep h (collectFieldStringT h v) (strsT v) := by
  match v with
  | .str s => exact StrStep.addString h s hw
  | .compound _ vs => exact collectFieldStringsT_step vs h hw
  | .enum v _ _ => exact collectStringsT_step v h hw
  | .slice t xs =>
    rw [collectFieldStringT]
    split
    · exact collectAllsT_step xs h hw
    · exact collectStringsLT_step xs h hw
  | .num .. | .opaque _ | .field .. | .nil => exact StrStep.refl hw _
theorem collectStringsLT_step (vs : List TVal) (h : Heap) (hw : h.StrWF) :
    StrStep h (collectStringsLT h vs) (strsTs vs) := by
  match vs with
  | [] => exact StrStep.refl hw _
  | x :: xs =>
    have h1 := collectStringsT_step x h hw
    exact h1.trans (collectStringsLT_step xs _ h1.wf)
end

/-! ### Sequences -/

theorem serializeT_len (x : TVal) (h h2 : Heap) (i : Nat) (e : serializeT false h x = .ok (h2, i)) :
    h2.objects.length = h.objects.length + 1 ∧ 1 ≤ slicesT x := by
  match x with
  | .slice t xs =>
    simp only [serializeT] at e
    cases hv : seqElemsT false h xs with
    | ok b =>
      simp only [hv, Res.ok.injEq, Heap.addObject, Prod.mk.injEq] at e
      obtain ⟨rfl, -⟩ := e
      simp [slicesT]
    | err _ => simp [hv] at e
    | panic => simp [hv] at e
  | .opaque b =>
    simp only [serializeT, Res.ok.injEq, Heap.addObject, Prod.mk.injEq] at e
    obtain ⟨rfl, -⟩ := e
    simp [slicesT]
  | .compound _ [] =>
    simp only [serializeT, Res.ok.injEq, Heap.addObject, Prod.mk.injEq] at e
    obtain ⟨rfl, -⟩ := e
    simp [slicesT]
  | .compound _ (_ :: _) => simp [serializeT] at e
  | .num .. | .str _ | .field .. | .enum .. | .nil => simp [serializeT] at e

theorem serializesT_len (xs : List TVal) (h h2 : Heap) (is : List Nat) (e : serializesT false h xs = .ok (h2, is)) :
    h2.objects.length ≤ h.objects.length + slicesTs xs := by
  induction xs generalizing h h2 is with
  | nil =>
    simp only [serializesT, Res.ok.injEq, Prod.mk.injEq] at e
    obtain ⟨rfl, -⟩ := e
    omega
  | cons x xs ih =>
    simp only [serializesT] at e
    cases hx : serializeT false h x with
    | ok r =>
      obtain ⟨h3, i⟩ := r
      have h1 := serializeT_len x h h3 i hx
      simp only [hx] at e
      cases hs : serializesT false h3 xs with
      | ok r =>
        obtain ⟨h4, is4⟩ := r
        have := ih _ _ _ hs
        simp only [hs, Res.ok.injEq, Prod.mk.injEq] at e
        obtain ⟨rfl, -⟩ := e
        simp only [slicesTs]
        omega
      | err _ => simp [hs] at e
      | panic => simp [hs] at e
    | err _ => simp [hx] at e
    | panic => simp [hx] at e

mutual
theorem collectAttrVlenT_len (v : TVal) (h h2 : Heap) (is : List Nat) (e : collectAttrVlenT false h v = .ok (h2, is)) :
    h2.objects.length ≤ h.objects.length + slicesT v := by
  match v with
  | .compound _ vs =>
    have := collectFieldVlensT_len vs h h2 is e
    simp only [slicesT]
    omega
  | .enum v _ _ => exact collectAttrVlenT_len v h h2 is e
  | .slice t xs =>
    simp only [collectAttrVlenT] at e
    simp only [slicesT]
    split at e
    · have := serializesT_len xs h h2 is e
      omega
    · have := collectAttrVlensT_len xs h h2 is e
      omega
  | .num .. | .opaque _ | .str _ | .field .. | .nil =>
    simp only [collectAttrVlenT, Res.ok.injEq, Prod.mk.injEq] at e
    obtain ⟨rfl, -⟩ := e
    omega
theorem collectFieldVlensT_len (vs : List TVal) (h h2 : Heap) (is : List Nat)
    (e : collectFieldVlensT false h vs = .ok (h2, is)) : h2.objects.length ≤ h.objects.length + slicesTs vs := by
  match vs with
  | [] =>
    simp only [collectFieldVlensT, Res.ok.injEq, Prod.mk.injEq] at e
    obtain ⟨rfl, -⟩ := e
    omega
  | x :: xs =>
    simp only [collectFieldVlensT] at e
    cases hx : collectFieldVlenT false h x with
    | ok r =>
      obtain ⟨h3, is3⟩ := r
      have h1 := collectFieldVlenT_len x h h3 is3 hx
      simp only [hx] at e
      cases hs : collectFieldVlensT false h3 xs with
      | ok r =>
        obtain ⟨h4, is4⟩ := r
        have h2' := collectFieldVlensT_len xs h3 h4 is4 hs
        simp only [hs, Res.ok.injEq, Prod.mk.injEq] at e
        obtain ⟨rfl, -⟩ := e
        simp only [slicesTs]
        omega
      | err _ => simp [hs] at e
      | panic => simp [hs] at e
    | err _ => simp [hx] at e
    | panic => simp [hx] at e
theorem collectFieldVlenT_len (v : TVal) (h h2 : Heap) (is : List Nat) (e : collectFieldVlenT false h v = .ok (h2, is)) :
    h2.objects.length ≤ h.objects.length + slicesT v := by
  match v with
  | .compound _ vs =>
    have := collectFieldVlensT_len vs h h2 is e
    simp only [slicesT]
    omega
  | .enum v _ _ => exact collectAttrVlenT_len v h h2 is e
  | .slice t xs =>
    simp only [collectFieldVlenT] at e
    cases hx : serializeT false h (.slice t xs) with
    | ok r =>
      obtain ⟨h3, i⟩ := r
      have := serializeT_len _ h h3 i hx
      simp only [hx, Res.ok.injEq, Prod.mk.injEq] at e
      obtain ⟨rfl, -⟩ := e
      omega
    | err _ => simp [hx] at e
    | panic => simp [hx] at e
  | .num .. | .opaque _ | .str _ | .field .. | .nil =>
    simp only [collectFieldVlenT, Res.ok.injEq, Prod.mk.injEq] at e
    obtain ⟨rfl, -⟩ := e
    omega
theorem collectAttrVlensT_len (vs : List TVal) (h h2 : Heap) (is : List Nat)
    (e : collectAttrVlensT false h vs = .ok (h2, is)) : h2.objects.length ≤ h.objects.length + slicesTs vs := by
  match vs with
  | [] =>
    simp only [collectAttrVlensT, Res.ok.injEq, Prod.mk.injEq] at e
    obtain ⟨rfl, -⟩ := e
    omega
  | x :: xs =>
    simp only [collectAttrVlensT] at e
    cases hx : collectAttrVlenT false h x with
    | ok r =>
      obtain ⟨h3, is3⟩ := r
      have h1 := collectAttrVlenT_len x h h3 is3 hx
      simp only [hx] at e
      cases hs : collectAttrVlensT false h3 xs with
      | ok r =>
        obtain ⟨h4, is4⟩ := r
        have h2' := collectAttrVlensT_len xs h3 h4 is4 hs
        simp only [hs, Res.ok.injEq, Prod.mk.injEq] at e
        obtain ⟨rfl, -⟩ := e
        simp only [slicesTs]
        omega
      | err _ => simp [hs] at e
      | panic => simp [hs] at e
    | err _ => simp [hx] at e
    | panic => simp [hx] at e
end

theorem one_len {x : TVal} {h h2 : Heap} {is : List Nat}
    (e : (match serializeT false h x with
      | .err e => Res.err e
      | .panic => .panic
      | .ok (h, i) => .ok (h, [i])) = .ok (h2, is)) :
    h2.objects.length ≤ h.objects.length + slicesT x := by
  cases hx : serializeT false h x with
  | ok r =>
    obtain ⟨h3, i⟩ := r
    have := serializeT_len _ h h3 i hx
    simp only [hx, Res.ok.injEq, Prod.mk.injEq] at e
    obtain ⟨rfl, -⟩ := e
    omega
  | err _ => simp [hx] at e
  | panic => simp [hx] at e

mutual
theorem collectVarVlenT_len (v : TVal) (n : Nat) (h h2 : Heap) (is : List Nat)
    (e : collectVarVlenT false h v n = .ok (h2, is)) : h2.objects.length ≤ h.objects.length + slicesT v := by
  match v with
  | .enum v _ _ => exact collectVarVlenT_len v n h h2 is e
  | .slice t xs =>
    simp only [collectVarVlenT] at e
    split at e
    · exact one_len e
    · have := collectVarVlensT_len xs (n - 1) h h2 is e
      simp only [slicesT]
      omega
  | .compound _ vs =>
    simp only [collectVarVlenT] at e
    split at e
    · exact one_len e
    · simp only [Res.ok.injEq, Prod.mk.injEq] at e
      obtain ⟨rfl, -⟩ := e
      omega
  | .opaque b =>
    simp only [collectVarVlenT] at e
    split at e
    · exact one_len e
    · simp only [Res.ok.injEq, Prod.mk.injEq] at e
      obtain ⟨rfl, -⟩ := e
      omega
  | .num .. | .str _ | .field .. | .nil =>
    simp only [collectVarVlenT, Res.ok.injEq, Prod.mk.injEq] at e
    obtain ⟨rfl, -⟩ := e
    omega
theorem collectVarVlensT_len (vs : List TVal) (n : Nat) (h h2 : Heap) (is : List Nat)
    (e : collectVarVlensT false h vs n = .ok (h2, is)) : h2.objects.length ≤ h.objects.length + slicesTs vs := by
  match vs with
  | [] =>
    simp only [collectVarVlensT, Res.ok.injEq, Prod.mk.injEq] at e
    obtain ⟨rfl, -⟩ := e
    omega
  | x :: xs =>
    simp only [collectVarVlensT] at e
    cases hx : collectVarVlenT false h x n with
    | ok r =>
      obtain ⟨h3, is3⟩ := r
      have h1 := collectVarVlenT_len x n h h3 is3 hx
      simp only [hx] at e
      cases hs : collectVarVlensT false h3 xs n with
      | ok r =>
        obtain ⟨h4, is4⟩ := r
        have h2' := collectVarVlensT_len xs n h3 h4 is4 hs
        simp only [hs, Res.ok.injEq, Prod.mk.injEq] at e
        obtain ⟨rfl, -⟩ := e
        simp only [slicesTs]
        omega
      | err _ => simp [hs] at e
      | panic => simp [hs] at e
    | err _ => simp [hx] at e
    | panic => simp [hx] at e
end

/-! ### Stored -/

theorem VarValue.size {w : WTy} {dims : List Nat} {v : TVal} (h : VarValue w dims v) : w.dt.len = w.fieldSize := by
  cases h with
  | records t dims v ht => cases w <;> first | (simp [WTy.dt, DT.len, WTy.fieldSize]; done) | cases ht
  | seqs t dims v hv hpos => simp [WTy.dt, DT.len, WTy.fieldSize]
  | enum k names vals dims v hf => simp [WTy.dt, DT.len, WTy.fieldSize]

theorem AttrValue.size {w : WTy} {dims : List Nat} {v : TVal} (h : AttrValue w dims v) : w.dt.len = w.fieldSize := by
  cases h with
  | records t dims v ht => cases w <;> first | (simp [WTy.dt, DT.len, WTy.fieldSize]; done) | cases ht
  | seqs t dims v hv hpos => simp [WTy.dt, DT.len, WTy.fieldSize]
  | enum k names vals dims v hf => simp [WTy.dt, DT.len, WTy.fieldSize]

theorem heapeds_of {ts : List WTy} (h : ∀ (i : Nat) (t : WTy), ts[i]? = some t → t.Heaped) : Heapeds ts := by
  induction ts with
  | nil => trivial
  | cons t ts ih => exact ⟨h 0 t rfl, ih fun i u hu => h (i + 1) u hu⟩

theorem Item.heaped {a b : Bool} {t : WTy} {v : TVal} (h : Item a b t v) : t.Heaped := by
  induction h with
  | num | blob | enum | str => trivial
  | seq t xs hx hp he hl ih =>
    cases xs with
    | nil =>
      obtain ⟨k, rfl⟩ := he rfl
      trivial
    | cons x xs => exact ih x (by simp)
  | compound names ts vs hn hl hv ih =>
    refine heapeds_of fun i t ht => ?_
    have hi : i < vs.length := by
      rw [hl]
      exact (List.getElem?_eq_some_iff.1 ht).1
    exact ih i t vs[i] ht (List.getElem?_eq_getElem hi)

theorem ArrT.leaf {base : TTy} {leaf : TVal → Prop} {dims : List Nat} {v : TVal} (h : ArrT base leaf dims v)
    (hp : ∀ d ∈ dims, d ≠ 0) : ∃ x, leaf x := by
  induction dims generalizing v with
  | nil => exact ⟨v, h⟩
  | cons d ds ih =>
    obtain ⟨xs, rfl, hl, hx⟩ := h
    cases xs with
    | nil => exact absurd hl.symm (hp d (by simp))
    | cons x xs => exact ih (hx x (by simp)) fun e he => hp e (by simp [he])

theorem VarValue.heaped {w : WTy} {dims : List Nat} {v : TVal} (h : VarValue w dims v) : w.Heaped := by
  cases h with
  | records _ _ _ _ hv hp | seqs _ _ _ hv hp => exact (hv.leaf hp).choose_spec.heaped
  | enum => trivial

theorem AttrValue.heaped {w : WTy} {dims : List Nat} {v : TVal} (h : AttrValue w dims v) : w.Heaped := by
  cases h with
  | records _ _ _ _ hv hp | seqs _ _ _ hv hp => exact (hv.leaf hp).choose_spec.heaped
  | enum => trivial

theorem heap_written (H : Heap) (buf post : Bytes) (hfew : H.objects.length < 65536)
    (haddr : H.addr = (writeGlobalHeap buf H.objects).2)
    (hlen : ((writeGlobalHeap buf H.objects).1 ++ post).length < 2 ^ 63) :
    HeapHas (heapLookup ((writeGlobalHeap buf H.objects).1 ++ post)) H := by
  have hblock : ((writeGlobalHeap buf H.objects).1 ++ post).drop H.addr = heapBlock H.objects ++ post := by
    rw [haddr, writeGlobalHeap_eq]
    simp only
    rw [List.append_assoc, List.drop_left]
  exact heapHas_block _ H post hlen hblock hfew

/-- What the reader keeps of the bytes of an attribute. -/
theorem attr_data {w : WTy} {dims : List Nat} {v : TVal} (hv : AttrValue w dims v) (hr : w.Readable true)
    (hop : ∀ n, w ≠ .opaque n) (hsz : prod dims * w.dt.len < 2 ^ 63) {heap : HeapFn} {b : Bytes}
    (hbl : b.length = prod dims * w.fieldSize) (hb : Shown heap w.dt dims b v) :
    ∃ d, attrData b w.dt = .ok d ∧ ∀ name, AttrShown heap ⟨name, dims, w.dt, d⟩ v := by
  have hlt : b.length < 2 ^ 64 := by rw [hbl, ← hv.size]; omega
  have hdf : ∀ d, d = .df b → ∀ name, AttrShown heap ⟨name, dims, w.dt, d⟩ v :=
    fun d hd name => AttrShown.data b [] (by simp [hd]) hlt hb
  cases hv with
  | records t dims v ht hv hp =>
    cases w with
    | compound ns ts =>
      have h1 := prod_pos hp
      have h2 : 0 < fieldSizes ts := by
        simp only [WTy.Readable] at hr
        exact hr.2.2.2.1
      have h3 : 0 < b.length := by
        rw [hbl, WTy.fieldSize]
        exact Nat.mul_pos h1 h2
      refine ⟨.df b, by simp [WTy.dt, attrData, h3], hdf _ rfl⟩
    | «opaque» n => exact absurd rfl (hop n)
    | _ => cases ht
  | seqs t dims v hv hp hu =>
    have h1 := prod_pos hp
    have h3 : 16 ≤ b.length := by
      rw [hbl, WTy.fieldSize]
      exact Nat.le_mul_of_pos_left _ h1
    refine ⟨.df b, by simp [WTy.dt, attrData, h3], hdf _ rfl⟩
  | enum k names vals dims v hf hv hp =>
    by_cases h3 : 0 < b.length
    · exact ⟨.df b, by simp [WTy.dt, attrData, h3], hdf _ rfl⟩
    · obtain rfl : b = [] := List.length_eq_zero_iff.1 (by omega)
      exact ⟨.none, by simp [WTy.dt, attrData], fun name => AttrShown.empty rfl hb⟩

theorem datatypeOf_user (v : TVal) (n : Nat) : datatypeOf (.user v) n = datatypeOfT v n := by
  cases n <;> rfl

theorem lift_user (v : TVal) : GoVal.lift (.user v) = v := by simp [GoVal.lift]

/-- Collecting and encoding an attribute value. -/
theorem attrAny_collect (v : GoVal) (hv : AttrAny v) (h0 h1 : Heap) (hw : h0.StrWF)
    (hle : (collectStrings h0 v).Le h1) :
    ∃ h2 is, collectAttrVlen false h1 v = .ok (h2, is) ∧ h1.Le h2 ∧ h2.indices = h1.indices ∧
      ∀ H heap, h2.Le H → HeapHas heap H → ∃ t dims data, AttrEnc heap (some H) is v t dims data := by
  cases hv with
  | common _ hv => exact attr_collect v hv h0 h1 hw hle
  | user w dims v hv hr hop hfit hroom =>
    obtain ⟨⟨u1, u2, u3⟩, u4⟩ := attr_user hv
    obtain ⟨-, -, u5⟩ := u4 h0 hw
    obtain ⟨h2, is, e1, e2, e3, e4⟩ := u5 h1
    refine ⟨h2, is, e1, e2, e3, fun H heap hH hh => ?_⟩
    obtain ⟨b, hb⟩ := e4 H heap hH ((hle.trans e2).trans hH) hh
    have hbl := hb.len
    have hfl := form_bytes w true hr
    obtain ⟨d, hd1, hd2⟩ := attr_data hv hr hop (by rw [hv.size]; omega) hbl hb.shown
    refine ⟨w, dims, b, u3, by rw [datatypeOf_user, u2], ⟨_, hb.write _⟩, hr, .inr hv.heaped, ?_, hfit, ?_, d, hd1, ?_, ?_, ?_⟩
    · rw [← hfl]; omega
    · rw [← hfl, hbl]
      simp only [valueRoom]
      omega
    · exact fun hc => hc.elim
    · intro s h; cases h
    · rw [lift_user]; exact hd2

theorem defaultFill_user {w : WTy} {dims : List Nat} {v : TVal} (hv : VarValue w dims v) :
    defaultFill w.dt false = .ok [0] := by
  cases hv with
  | records t dims v ht => cases w <;> first | rfl | cases ht
  | seqs t dims v hv hpos => rfl
  | enum k names vals dims v hf => rfl

/-- Collecting and encoding the value of a variable. -/
theorem varAny_collect (v : GoVal) (n : Nat) (hv : VarAny n v) (h0 h1 : Heap) (hw : h0.StrWF)
    (hle : (collectStrings h0 v).Le h1) :
    ∃ h2 is, collectVar false h1 v n = .ok (h2, is) ∧ h1.Le h2 ∧ h2.indices = h1.indices ∧
      ∀ H heap, h2.Le H → HeapHas heap H →
        ∃ t dims data, VarEnc heap (some H) is v n t dims data := by
  cases hv with
  | common _ _ hv => exact var_collect v n hv h0 h1 hw hle
  | user w dims v hv hr hpos hs hroom =>
    obtain ⟨⟨u1, u2, u3⟩, u4⟩ := var_user hv
    obtain ⟨-, -, u5⟩ := u4 h0 hw
    obtain ⟨h2, is, e1, e2, e3, e4⟩ := u5 h1
    refine ⟨h2, is, e1, e2, e3, fun H heap hH hh => ?_⟩
    obtain ⟨b, hb⟩ := e4 H heap hH ((hle.trans e2).trans hH) hh
    have hbl := hb.len
    refine ⟨w, dims, b, u3, rfl, by rw [datatypeOf_user, u2], ⟨_, hb.write _⟩, hr, .inr hv.heaped, ?_, ⟨hs.rank, hs.fits⟩, ?_,
      ⟨_, defaultFill_user hv, by simp⟩, ?_, ?_, ?_, ?_, by rw [lift_user]; exact hb.shown⟩
    · rw [← form_bytes w true hr]; exact hroom
    · rw [hv.size]; exact hpos
    · rw [hv.size]; exact hbl
    · rw [hbl]; exact hs.size
    · exact fun hc => hc.elim
    · exact fun hc => hc.elim

end Verif.H5
