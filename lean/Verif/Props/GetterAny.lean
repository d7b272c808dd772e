import Verif.Props.Getter
import Verif.Props.H5Box
import Verif.Spec.GetterAny
import Verif.Lemmas.H5SaneSuper
/-!
C58, HDF5: slices and boxes with any bounds. C11, HDF5.
-/
namespace Verif.H5
open Sane (newSeek_safe Safe)

/-! ### Slices of numbers with any bounds -/

theorem res_bind_safe {α β : Type} {r : Res α} {f : α → Res β} (h1 : r ≠ .panic) (h2 : ∀ a, r = .ok a → f a ≠ .panic) :
    (r >>= f) ≠ .panic := by
  cases r with
  | ok a => exact h2 a rfl
  | err e => simp [bind, Res.bind]
  | panic => exact absurd rfl h1

theorem defaultFill_safe (dt : DT) (u : Bool) : defaultFill dt u ≠ .panic := by
  unfold defaultFill
  rcases hn : numKind dt with _ | ⟨k, be⟩
  · cases dt <;> simp
  · simp only
    split
    · simp
    · split <;> simp

theorem fillBytes_safe (i : Info) (dt : DT) (n : Int) (h1 : i.fillValue ≠ some (.value [])) (h2 : i.fillValueOld ≠ some []) :
    fillBytes i dt n ≠ .panic := by
  have : fillPattern i dt ≠ .panic := by
    unfold fillPattern
    split
    · simp
    · rename_i h; exact absurd h h1
    · exact defaultFill_safe _ _
    · split
      · simp
      · rename_i h; exact absurd h h2
      · exact defaultFill_safe _ _
  unfold fillBytes
  cases h : fillPattern i dt with
  | ok a => simp [Res.map]
  | err e => simp [Res.map]
  | panic => exact absurd h this

/-- A block as the descriptions of variables that are not in chunks have it. -/
def PlainBlock (v : DBlock) : Prop := ∀ r, v.src = .raw r → v.dsLength = r.length ∧ r.length < 2 ^ 63

theorem blockBytes_safe (inflate : Bytes → Res Bytes) (file : Bytes) (v : DBlock) (a z : Nat) (hv : PlainBlock v)
    (hz : z ≤ v.dsLength) : blockBytes inflate file [] v a z ≠ .panic := by
  unfold blockBytes
  split
  · rename_i b hb
    obtain ⟨h1, h2⟩ := hv b hb
    have hu : i64 (u64 ((v.dsLength : Int) - z)) = ((v.dsLength - z : Nat) : Int) := by
      have : u64 ((v.dsLength : Int) - z) = v.dsLength - z := by unfold u64; omega
      rw [this, i64, if_pos (by omega)]
    simp only [hu]
    rw [if_neg (by omega)]
    refine res_bind_safe (by simp [pipeline, undoFilters]) fun p _ => ?_
    split <;> simp
  · refine res_bind_safe (newSeek_safe _ _ _) fun s _ => ?_
    split
    · exact res_bind_safe (newSeek_safe _ _ _) fun s _ => by simp
    · refine res_bind_safe (by simp [pipeline, undoFilters]) fun p _ => ?_
      simp only
      split <;> simp

theorem recordSegs_safe (inflate : Bytes → Res Bytes) (file : Bytes) (i : Info) (dims : List Nat) (n first last : Nat)
    (hl : i.layout = []) (hf : i.filters = []) (off : Nat) (vs : List DBlock) (hv : ∀ v ∈ vs, PlainBlock v) :
    recordSegs inflate file i dims n first last off vs ≠ .panic := by
  induction vs generalizing off with
  | nil => simp [recordSegs]
  | cons v vs ih =>
    have ih := fun o => ih o (fun w hw => hv w (by simp [hw]))
    unfold recordSegs
    simp only [blockOffset, hl, if_true, Res.bind_ok]
    split
    · exact ih _
    · split
      · simp
      · refine res_bind_safe ?_ fun b _ => res_bind_safe (ih _) fun s _ => by simp
        rw [hf]
        apply blockBytes_safe _ _ _ _ _ (hv v (by simp))
        split
        · have : (off + v.dsLength) % 2 ^ 64 ≤ off + v.dsLength := Nat.mod_le _ _
          omega
        · omega

theorem joinSegs_safe (i : Info) (dt : DT) (h1 : i.fillValue ≠ some (.value [])) (h2 : i.fillValueOld ≠ some [])
    (off : Nat) (ss : List Seg) : joinSegs i dt off ss ≠ .panic := by
  induction ss generalizing off with
  | nil => simp [joinSegs]
  | cons s ss ih =>
    unfold joinSegs
    simp only
    split
    · exact res_bind_safe (fillBytes_safe _ _ _ h1 h2) fun hole _ => res_bind_safe (ih _) fun p _ => by simp
    · exact res_bind_safe (by simp) fun hole _ => res_bind_safe (ih _) fun p _ => by simp

theorem dataBytes_safe (inflate : Bytes → Res Bytes) (fuel : Nat) (file : Bytes) (i : Info) (dt : DT) (dims : List Nat)
    (cached : List DBlock) (sl : Sl) (hl : i.layout = []) (hf : i.filters = []) (hc : i.chunk = none)
    (h1 : i.fillValue ≠ some (.value [])) (h2 : i.fillValueOld ≠ some []) (hv : ∀ v ∈ cached, PlainBlock v) :
    dataBytes inflate fuel file i dt dims cached sl ≠ .panic ∧
    ∀ b bl, dataBytes inflate fuel file i dt dims cached sl = .ok (b, bl) → bl = cached := by
  have hbl : ∀ f l, blocksOf fuel file i dims f l cached = .ok cached := by
    intro f l
    cases cached with
    | nil => simp [blocksOf, hc]
    | cons _ _ => rfl
  have hrec : recordBytes inflate fuel file i dt dims cached sl ≠ .panic ∧
      ∀ b n bl, recordBytes inflate fuel file i dt dims cached sl = .ok (b, n, bl) → bl = cached := by
    unfold recordBytes
    simp only [calcAttrSize, hl, if_true, needsLayoutReader, Res.bind_ok]
    split
    · exact ⟨by simp, fun b n bl h => by simp only [Res.pure_eq, Res.ok.injEq, Prod.mk.injEq] at h; exact h.2.2.symm⟩
    · simp only [hbl, Res.bind_ok]
      constructor
      · refine res_bind_safe ?_ fun b _ => by simp
        unfold recordFrom
        split
        · exact fillBytes_safe _ _ _ h1 h2
        · refine res_bind_safe (recordSegs_safe _ _ _ _ _ _ _ hl hf _ _ hv) fun segs _ =>
            res_bind_safe (joinSegs_safe _ _ h1 h2 _ _) fun p _ => ?_
          simp only
          split
          · refine res_bind_safe (fillBytes_safe _ _ _ h1 h2) fun ex _ => ?_
            split <;> simp
          · refine res_bind_safe (by simp) fun ex _ => ?_
            split <;> simp
      · intro b n bl h
        obtain ⟨x, -, h⟩ := (Res.bind_eq_ok.mp h)
        simp only [Res.pure_eq, Res.ok.injEq, Prod.mk.injEq] at h
        exact h.2.2.symm
  obtain ⟨r1, r2⟩ := hrec
  unfold dataBytes
  simp only [calcAttrSize, hl, if_true, needsLayoutReader, Res.bind_ok]
  constructor
  · refine res_bind_safe r1 fun p _ => ?_
    have fin : ∀ b : Bytes, (match sl with
        | none => (pure (b.take (prod64 dims * dt.len % 2 ^ 64), p.2.2) : Res (Bytes × List DBlock))
        | some (x, y) =>
          if y < x then .err .assertFail
          else
            pure (b.take ((match dims with
              | [] => 1
              | 0 :: _ => 0
              | d :: _ => prod64 dims * dt.len % 2 ^ 64 / d) * (y - x).toNat), p.2.2)) ≠ .panic := by
      intro b
      split
      · simp
      · split <;> simp
    simp only [Bool.false_eq_true, if_false]
    refine res_bind_safe (by simp) fun b _ => ?_
    split
    · refine res_bind_safe ?_ fun b' _ => fin b'
      cases hh : fillBytes i dt _ with
      | ok a => simp [Res.map]
      | err e => simp [Res.map]
      | panic => exact absurd hh (fillBytes_safe _ _ _ h1 h2)
    · exact res_bind_safe (by simp) fun b' _ => fin b'
  · intro b bl h
    obtain ⟨⟨x, n, bl'⟩, hx, h⟩ := (Res.bind_eq_ok.mp h)
    have := r2 _ _ _ hx
    obtain ⟨y, -, h⟩ := (Res.bind_eq_ok.mp h)
    have fin : ∀ z : Bytes, (match sl with
        | none => (pure (z.take (prod64 dims * dt.len % 2 ^ 64), bl') : Res (Bytes × List DBlock))
        | some (x, y) =>
          if y < x then .err .assertFail
          else
            pure (z.take ((match dims with
              | [] => 1
              | 0 :: _ => 0
              | d :: _ => prod64 dims * dt.len % 2 ^ 64 / d) * (y - x).toNat), bl')) = .ok (b, bl) → bl = cached := by
      intro z hz
      split at hz
      · simp only [Res.pure_eq, Res.ok.injEq, Prod.mk.injEq] at hz
        rw [← hz.2]; exact this
      · split at hz
        · cases hz
        · simp only [Res.pure_eq, Res.ok.injEq, Prod.mk.injEq] at hz
          rw [← hz.2]; exact this
    simp only [Bool.false_eq_true, if_false] at h
    split at h
    · obtain ⟨z, -, h⟩ := (Res.bind_eq_ok.mp h)
      exact fin z h
    · obtain ⟨z, -, h⟩ := (Res.bind_eq_ok.mp h)
      exact fin z h

theorem allocNum_safe (k : Kind) (be : Bool) : Safe (allocNum k be) := (Safe.rdN _).bind fun _ => Safe.pure _

theorem times_safe {α : Type} {p : P α} (h : Safe p) (n : Nat) : Safe (times p n) := by
  induction n with
  | zero => exact Safe.pure _
  | succ n ih => exact h.bind fun _ => ih.bind fun _ => Safe.pure _

theorem allocArr_safe {base : GoTy} {p : P GoVal} (h : Safe p) (dims : List Nat) : Safe (allocArr base p dims) := by
  induction dims with
  | nil => exact h
  | cons d ds ih => exact (times_safe ih d).bind fun _ => Safe.pure _

theorem alloc_safe (heap : HeapFn) (dt : DT) (h : OnePiece dt) (dims : List Nat) :
    ∃ base p, Safe p ∧ alloc heap dt dims = allocArr base p dims := by
  rcases h with h | ⟨n, rfl, hn⟩ | ⟨n, rfl⟩
  · rcases hk : numKind dt with _ | ⟨k, be⟩
    · exact absurd hk h
    · refine ⟨leafTy dt, allocNum k be, allocNum_safe k be, ?_⟩
      have : allocLeaf heap dt = allocNum k be := by unfold allocLeaf; rw [hk]
      unfold alloc
      split
      · cases hk
      · cases hk
      · cases hk
      · rw [this]
  · refine ⟨.str, allocFixStr n, (Safe.rdN _).bind fun _ => Safe.pure _, ?_⟩
    simp only [alloc, allocFixStrs, if_neg hn]
  · exact ⟨_, allocNum .u64 false, allocNum_safe _ _, rfl⟩

theorem onBytes_safe {α : Type} (b : Bytes) {p : P α} (h : Safe p) : onBytes b p ≠ .panic := by
  unfold onBytes
  cases hp : p ⟨0, b⟩ with
  | ok r => simp
  | err e => simp
  | panic => exact absurd hp (h _)

theorem objData_safe {s : Src} {o : Obj} {dt : DT} (hw : WholeVar o.info dt) (v : VSt)
    (hc : v.cached = o.info.blocks.map Block.toD) :
    objData s o v ≠ .panic ∧ ∀ x bl, objData s o v = .ok (x, bl) → bl = v.cached := by
  have hv : ∀ w ∈ v.cached, PlainBlock w := by
    intro w hw' r hr
    rw [hc] at hw'
    obtain ⟨blk, h1, rfl⟩ := List.mem_map.mp hw'
    cases blk with
    | raw r' =>
      simp only [Block.toD, Block.raw.injEq] at hr
      subst hr
      exact ⟨rfl, hw.small _ h1⟩
    | «at» a n => cases hr
  obtain ⟨k1, k2⟩ := dataBytes_safe s.inflate s.fuel s.file o.info dt (o.info.dims.getD []) v.cached v.sl
    hw.layout hw.filters hw.chunk hw.fill hw.fillOld hv
  obtain ⟨base, p, hp, ha⟩ := alloc_safe (heapLookup s.file) dt hw.values (sliceDims (o.info.dims.getD []) v.sl)
  simp only [objData, hw.type, getData, ha]
  constructor
  · exact res_bind_safe k1 fun q _ => res_bind_safe (onBytes_safe _ (allocArr_safe hp _)) fun x _ => by simp
  · intro x bl h
    obtain ⟨⟨b, bl'⟩, h1, h⟩ := Res.bind_eq_ok.mp h
    obtain ⟨y, -, h⟩ := Res.bind_eq_ok.mp h
    simp only [Res.pure_eq, Res.ok.injEq, Prod.mk.injEq] at h
    rw [← h.2]
    exact k2 _ _ h1

theorem of_put_same (t : VTab) (o : Obj) (v : VSt) : (t.put o v).of o = v := by
  simp [VTab.of, VTab.put]

/-- One call. -/
theorem getSlice_safe (s : Src) {h : HGetter} {dt : DT} (hw : WholeVar h.obj.info dt) (t : VTab) (b e : Int)
    (ht : (t.of h.obj).cached = h.obj.info.blocks.map Block.toD) :
    (h.getSlice s t b e).2 ≠ .panic ∧
    ((h.getSlice s t b e).1.of h.obj).cached = h.obj.info.blocks.map Block.toD := by
  unfold HGetter.getSlice
  split
  · obtain ⟨k1, k2⟩ := objData_safe (s := s) hw (t.of h.obj) ht
    cases ho : objData s h.obj (t.of h.obj) with
    | ok r => exact ⟨by simp, by simp only [of_put_same]; rw [k2 _ _ ho, ht]⟩
    | err x => exact ⟨by simp, ht⟩
    | panic => exact absurd ho k1
  · split
    · exact ⟨by simp, ht⟩
    · obtain ⟨k1, -⟩ := objData_safe (s := s) hw ⟨some (b, e), (t.of h.obj).cached⟩ ht
      refine ⟨?_, by simp only [of_put_same]; exact ht⟩
      simp only
      cases ho : objData s h.obj ⟨some (b, e), (t.of h.obj).cached⟩ with
      | ok r => simp [Res.map]
      | err x => simp [Res.map]
      | panic => exact absurd ho k1

theorem sliced_cached (s : Src) {h : HGetter} {dt : DT} (hw : WholeVar h.obj.info dt) (calls : List (Int × Int)) :
    ((sliced s h calls).of h.obj).cached = h.obj.info.blocks.map Block.toD := by
  have all : ∀ (t : VTab), (t.of h.obj).cached = h.obj.info.blocks.map Block.toD →
      ((calls.foldl (fun t c => (h.getSlice s t c.1 c.2).1) t).of h.obj).cached = h.obj.info.blocks.map Block.toD := by
    induction calls with
    | nil => exact fun t ht => ht
    | cons c cs ih => exact fun t ht => ih _ (getSlice_safe s hw t c.1 c.2 ht).2
  exact all [] (by simp [VTab.of])

/-- **C58** (partial, HDF5). In every file, `GetSlice` of a variable that is not in chunks, of numbers,
strings of fixed length that are longer than one byte, or references, never panics, whatever the bounds:
below zero, reversed, behind the end. It returns an error or values. So it is after any number of such
calls, with any bounds. Missing: chunks, filters, other types (`C58_negation_hdf5`); amounts that do not fit
into memory, for memory is unlimited in this model. -/
theorem C58_hdf5_slices_partial (s : Src) (h : HGetter) (dt : DT) (hw : WholeVar h.obj.info dt)
    (calls : List (Int × Int)) (b e : Int) :
    (∃ x, (h.getSlice s (sliced s h calls) b e).2 = .err x) ∨ ∃ v, (h.getSlice s (sliced s h calls) b e).2 = .ok v := by
  have := (getSlice_safe s hw _ b e (sliced_cached s hw calls)).1
  cases hr : (h.getSlice s (sliced s h calls) b e).2 with
  | ok v => exact .inr ⟨v, rfl⟩
  | err x => exact .inl ⟨x, rfl⟩
  | panic => exact absurd hr this

/-! ### Boxes -/

/-- An array with these lengths, as far as they go. -/
def RectV : List Nat → GoVal → Prop
  | [], _ => True
  | d :: ds, v => ∃ t xs, v = .slice t xs ∧ xs.length = d ∧ ∀ x ∈ xs, RectV ds x

theorem times_each {α : Type} {p : P α} {Q : α → Prop} (h : ∀ s a s', p s = .ok (a, s') → Q a) (n : Nat) :
    ∀ s l s', times p n s = .ok (l, s') → l.length = n ∧ ∀ a ∈ l, Q a := by
  induction n with
  | zero =>
    intro s l s' h
    rw [times, P.pure_apply] at h
    simp only [Res.ok.injEq, Prod.mk.injEq] at h
    rw [← h.1]
    simp
  | succ n ih =>
    intro s l s' h'
    rw [times] at h'
    obtain ⟨a, s1, h1, h'⟩ := P.bind_ok h'
    obtain ⟨l1, s2, h2, h'⟩ := P.bind_ok h'
    rw [P.pure_apply] at h'
    simp only [Res.ok.injEq, Prod.mk.injEq] at h'
    rw [← h'.1]
    obtain ⟨k1, k2⟩ := ih _ _ _ h2
    refine ⟨by simp [k1], fun x hx => ?_⟩
    rcases List.mem_cons.mp hx with rfl | hx
    · exact h _ _ _ h1
    · exact k2 x hx

theorem allocArr_rect (base : GoTy) (p : P GoVal) (dims : List Nat) :
    ∀ s v s', allocArr base p dims s = .ok (v, s') → RectV dims v := by
  induction dims with
  | nil => exact fun _ _ _ _ => trivial
  | cons d ds ih =>
    intro s v s' h
    rw [allocArr] at h
    obtain ⟨xs, s1, h1, h⟩ := P.bind_ok h
    rw [P.pure_apply] at h
    simp only [Res.ok.injEq, Prod.mk.injEq] at h
    obtain ⟨k1, k2⟩ := times_each ih d _ _ _ h1
    exact ⟨_, xs, h.1.symm, k1, k2⟩

theorem resAll_safe {α β : Type} {f : α → Res β} (l : List α) (h : ∀ x ∈ l, f x ≠ .panic) : resAll (l.map f) ≠ .panic := by
  induction l with
  | nil => simp [resAll]
  | cons x xs ih =>
    have hx := h x (by simp)
    have ih := ih fun y hy => h y (by simp [hy])
    simp only [List.map_cons, resAll]
    cases hf : f x with
    | panic => exact absurd hf hx
    | err e => simp
    | ok a =>
      simp only
      cases hr : resAll (xs.map f) with
      | panic => exact absurd hr ih
      | err e => simp
      | ok as => simp

theorem sliceRec_safe (dims : List Nat) (rs : List (Nat × Nat)) (v : GoVal) (hv : RectV dims v) (hin : InBox rs dims) :
    sliceRec (rs.map fun r => ((r.1 : Int), (r.2 : Int))) v ≠ .panic := by
  induction dims generalizing rs v with
  | nil =>
    cases rs with
    | nil => simp [sliceRec]
    | cons _ _ => simp [InBox] at hin
  | cons d ds ih =>
    cases rs with
    | nil => simp [InBox] at hin
    | cons r rs =>
      obtain ⟨b, e⟩ := r
      obtain ⟨h1, h2, hin⟩ := hin
      obtain ⟨t, xs, rfl, hl, hx⟩ := hv
      simp only [List.map_cons, sliceRec]
      rw [if_neg (by omega)]
      cases rs with
      | nil => simp
      | cons r' rs =>
        simp only [List.map_cons]
        have : resAll (((xs.drop (b : Int).toNat).take ((e : Int) - b).toNat).map
            (sliceRec (((r'.1 : Int), (r'.2 : Int)) :: rs.map fun r => ((r.1 : Int), (r.2 : Int))))) ≠ .panic :=
          resAll_safe _ fun x hx' => ih (r' :: rs) x (hx x (List.mem_of_mem_drop (List.mem_of_mem_take hx'))) hin
        cases hr : resAll (((xs.drop (b : Int).toNat).take ((e : Int) - b).toNat).map
            (sliceRec (((r'.1 : Int), (r'.2 : Int)) :: rs.map fun r => ((r.1 : Int), (r.2 : Int))))) with
        | panic => exact absurd hr this
        | err x => simp [Res.map]
        | ok a => simp [Res.map]

theorem getSlice_rect (s : Src) {h : HGetter} {dt : DT} (hw : WholeVar h.obj.info dt) {d : Nat} {ds : List Nat}
    (hd : h.shape = d :: ds) (t : VTab) (b e : Int) {v : GoVal} (hv : (h.getSlice s t b e).2 = .ok v) :
    RectV (u64 (e - b) :: ds) v := by
  unfold HGetter.getSlice at hv
  rw [if_neg (by rw [hd]; simp)] at hv
  split at hv
  · cases hv
  · obtain ⟨base, p, -, ha⟩ := alloc_safe (heapLookup s.file) dt hw.values (u64 (e - b) :: ds)
    unfold HGetter.shape at hd
    simp only [objData, hw.type, getData, hd, sliceDims, ha] at hv
    cases hb : dataBytes s.inflate s.fuel s.file h.obj.info dt (d :: ds) (t.of h.obj).cached (some (b, e)) with
    | panic => rw [hb] at hv; cases hv
    | err x => rw [hb] at hv; cases hv
    | ok r =>
      rw [hb] at hv
      simp only [Res.bind_ok] at hv
      unfold onBytes at hv
      cases hp : allocArr base p (u64 (e - b) :: ds) ⟨0, r.1⟩ with
      | panic => rw [hp] at hv; cases hv
      | err x => rw [hp] at hv; cases hv
      | ok q =>
        rw [hp] at hv
        cases hv
        exact allocArr_rect _ _ _ _ _ _ hp

/-- **C58** (partial, HDF5). In every file, `GetSliceMD` of a variable that is not in chunks, of numbers,
strings of fixed length that are longer than one byte, or references, never panics: for any bounds of the
first dimension, below zero or behind the end, and bounds of the other dimensions inside them. It returns an
error or values, also after calls of `GetSlice`. Missing: bounds outside the other dimensions
(`C58_negation_hdf5_box`), chunks, filters, other types; amounts that do not fit into memory, for memory is
unlimited in this model. -/
theorem C58_hdf5_boxes_partial (s : Src) (h : HGetter) (dt : DT) (hw : WholeVar h.obj.info dt) (d : Nat) (ds : List Nat)
    (hd : h.shape = d :: ds) (calls : List (Int × Int)) (b e : Int) (hmax : e - b < 2 ^ 63)
    (rs : List (Nat × Nat)) (hin : InBox rs ds) :
    (∃ x, (h.getSliceMD s (sliced s h calls) (b :: rs.map fun r => (r.1 : Int)) (e :: rs.map fun r => (r.2 : Int))).2 =
      .err x) ∨
    ∃ v, (h.getSliceMD s (sliced s h calls) (b :: rs.map fun r => (r.1 : Int)) (e :: rs.map fun r => (r.2 : Int))).2 =
      .ok v := by
  have key : (h.getSliceMD s (sliced s h calls) (b :: rs.map fun r => (r.1 : Int))
      (e :: rs.map fun r => (r.2 : Int))).2 ≠ .panic := by
    have hs := (getSlice_safe s hw _ b e (sliced_cached s hw calls)).1
    unfold HGetter.getSliceMD
    split
    · simp
    · split
      · simp
      · rename_i hord
        simp only
        have hz : (rs.map fun r => (r.1 : Int)).zip (rs.map fun r => (r.2 : Int)) =
            rs.map fun r => ((r.1 : Int), (r.2 : Int)) := by rw [List.zip_map']
        have hbe : b ≤ e := by
          rw [List.zip_cons_cons, List.any_cons] at hord
          simp only [Bool.or_eq_true, decide_eq_true_eq, not_or] at hord
          omega
        cases hr : h.getSlice s (sliced s h calls) b e with
        | mk t r =>
        cases r with
        | err x => simp
        | panic => rw [hr] at hs; exact absurd rfl hs
        | ok v =>
          have hrect := getSlice_rect s hw hd (sliced s h calls) b e (v := v) (by rw [hr])
          obtain ⟨n, hn⟩ := Int.eq_ofNat_of_zero_le (show 0 ≤ e - b by omega)
          have hu : u64 (e - b) = n := by rw [hn]; unfold u64; omega
          rw [hu] at hrect
          simp only [hz, hu, i64]
          rw [if_pos (by omega)]
          exact sliceRec_safe (n :: ds) ((0, n) :: rs) v hrect ⟨by omega, by omega, hin⟩
  cases hr : (h.getSliceMD s (sliced s h calls) (b :: rs.map fun r => (r.1 : Int))
      (e :: rs.map fun r => (r.2 : Int))).2 with
  | ok v => exact .inr ⟨v, rfl⟩
  | err x => exact .inl ⟨x, rfl⟩
  | panic => exact absurd hr key

/-! ### A file -/

/-- The getter of the variable `a` of a file. -/
def aGetter (file : Bytes) : Option (Src × HGetter) :=
  match openN 20 file with
  | .ok o =>
    match (rootGroup o).getVarGetter ⟨fun _ => .panic, 20, file⟩ (ascii "a") with
    | .ok h => some (⟨fun _ => .panic, 20, file⟩, h)
    | _ => none
  | _ => none

/-- The hypotheses of the theorems for a getter of numbers of two bytes. -/
def isWhole (i : Info) : Bool :=
  (match i.dt with | some (.fixed 2 true false) => true | _ => false) && i.layout.isEmpty && i.filters.isEmpty &&
  i.chunk.isNone && i.fillValue.isNone && i.fillValueOld.isNone &&
  (match i.blocks with | [.at _ _] => true | _ => false)

theorem isWhole_whole {i : Info} (h : isWhole i = true) : WholeVar i (.fixed 2 true false) := by
  simp only [isWhole, Bool.and_eq_true, List.isEmpty_iff, Option.isNone_iff_eq_none] at h
  obtain ⟨⟨⟨⟨⟨⟨h1, h2⟩, h3⟩, h4⟩, h5⟩, h6⟩, h7⟩ := h
  refine ⟨?_, .inl (by simp [numKind]), h2, h3, h4, by rw [h5]; simp, by rw [h6]; simp, ?_⟩
  · split at h1
    · assumption
    · cases h1
  · intro r hr
    split at h7
    · rename_i hb
      rw [hb] at hr
      simp at hr
    · cases h7

/-- What is said about the getter of the variable `a`. -/
def aTest (file : Bytes) (f : Src → HGetter → Bool) : Bool :=
  match aGetter file with
  | some (s, h) => isWhole h.obj.info && f s h
  | none => false

theorem aTest_ok {file : Bytes} {f : Src → HGetter → Bool} (h : aTest file f = true) :
    ∃ o x, OpensTo file o ∧ (rootGroup o).getVarGetter ⟨fun _ => .panic, 20, file⟩ (ascii "a") = .ok x ∧
      WholeVar x.obj.info (.fixed 2 true false) ∧ f ⟨fun _ => .panic, 20, file⟩ x = true := by
  unfold aTest aGetter at h
  split at h
  · rename_i s x hx
    split at hx
    · rename_i o ho
      split at hx
      · rename_i y hy
        cases hx
        simp only [Bool.and_eq_true] at h
        exact ⟨o, x, ⟨20, ho⟩, hy, isWhole_whole h.1, h.2⟩
      · cases hx
    · cases hx
  · cases h

/-- Two rows of three numbers: a slice across the beginning and one across the end are errors, one before the
beginning is a row of zeroes. -/
example : ∃ o x, OpensTo boxNumbers o ∧
    (rootGroup o).getVarGetter ⟨fun _ => .panic, 20, boxNumbers⟩ (ascii "a") = .ok x ∧
    WholeVar x.obj.info (.fixed 2 true false) ∧ x.shape = [2, 3] ∧
    (x.getSlice ⟨fun _ => .panic, 20, boxNumbers⟩ [] (-1) 1).2 = .err .corrupted ∧
    (x.getSlice ⟨fun _ => .panic, 20, boxNumbers⟩ [] 1 5).2 = .err .eof ∧
    (x.getSliceMD ⟨fun _ => .panic, 20, boxNumbers⟩ [] [-3, 1] [-2, 3]).2 =
      .ok (.slice (.slice (.num .i16)) [.slice (.num .i16) [.num .i16 0, .num .i16 0]]) := by
  have h : aTest boxNumbers (fun s x => decide (x.shape = [2, 3] ∧ (x.getSlice s [] (-1) 1).2 = .err .corrupted ∧
      (x.getSlice s [] 1 5).2 = .err .eof ∧ (x.getSliceMD s [] [-3, 1] [-2, 3]).2 =
      .ok (.slice (.slice (.num .i16)) [.slice (.num .i16) [.num .i16 0, .num .i16 0]]))) = true := by
    decide +kernel
  obtain ⟨o, x, h1, h2, h3, h4⟩ := aTest_ok h
  exact ⟨o, x, h1, h2, h3, of_decide_eq_true h4⟩

/-- **C58, negation** (HDF5). `GetSliceMD` of two rows of three numbers panics if the bounds of the columns
are not inside them. -/
theorem C58_negation_hdf5_box : ∃ o x, OpensTo boxNumbers o ∧
    (rootGroup o).getVarGetter ⟨fun _ => .panic, 20, boxNumbers⟩ (ascii "a") = .ok x ∧ x.shape = [2, 3] ∧
    (x.getSliceMD ⟨fun _ => .panic, 20, boxNumbers⟩ [] [0, -1] [1, 1]).2 = .panic ∧
    (x.getSliceMD ⟨fun _ => .panic, 20, boxNumbers⟩ [] [0, 0] [1, 4]).2 = .panic := by
  have h : aTest boxNumbers (fun s x => decide (x.shape = [2, 3] ∧ (x.getSliceMD s [] [0, -1] [1, 1]).2 = .panic ∧
      (x.getSliceMD s [] [0, 0] [1, 4]).2 = .panic)) = true := by decide +kernel
  obtain ⟨o, x, h1, h2, -, h4⟩ := aTest_ok h
  exact ⟨o, x, h1, h2, of_decide_eq_true h4⟩

/-- **C11, negation** (HDF5). `GetSlice(-3, -2)` and `GetSlice(9, 10)` of a variable with two numbers, which
have no number of it, return a zero. -/
theorem C11_negation_hdf5_outside : ∃ file o x, OpensTo file o ∧
    (rootGroup o).getVarGetter ⟨fun _ => .panic, 20, file⟩ (ascii "a") = .ok x ∧ x.len = 2 ∧
    (x.values ⟨fun _ => .panic, 20, file⟩ []).2 = .ok (.slice (.num .i16) [.num .i16 7, .num .i16 8]) ∧
    (x.getSlice ⟨fun _ => .panic, 20, file⟩ [] (-3) (-2)).2 = .ok (.slice (.num .i16) [.num .i16 0]) ∧
    (x.getSlice ⟨fun _ => .panic, 20, file⟩ [] 9 10).2 = .ok (.slice (.num .i16) [.num .i16 0]) := by
  have h : aTest (boxFile [2] (.fixed 1 2 true false) [7, 0, 8, 0]) (fun s x => decide (x.len = 2 ∧
      (x.values s []).2 = .ok (.slice (.num .i16) [.num .i16 7, .num .i16 8]) ∧
      (x.getSlice s [] (-3) (-2)).2 = .ok (.slice (.num .i16) [.num .i16 0]) ∧
      (x.getSlice s [] 9 10).2 = .ok (.slice (.num .i16) [.num .i16 0]))) = true := by decide +kernel
  obtain ⟨o, x, h1, h2, -, h4⟩ := aTest_ok h
  exact ⟨_, o, x, h1, h2, of_decide_eq_true h4⟩

end Verif.H5
