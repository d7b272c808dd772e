import Verif.Lemmas.H5Value
import Verif.Lemmas.H5Forms
import Verif.Spec.H5Written
/-!
The heaps of the writer are collections of the format, and a collection can be read in one way only.
-/
namespace Verif.H5
open Fmt (HeapItem)

/-- Objects of the writer from index `i + 1`, as objects of the format. -/
def heapItems : Nat → List Bytes → List HeapItem
  | _, [] => []
  | i, o :: os => ⟨i + 1, 0, o⟩ :: heapItems (i + 1) os

theorem heapItems_bytes (i : Nat) (os : List Bytes) : (heapItems i os).flatMap HeapItem.bytes = objsBytes i os := by
  induction os generalizing i with
  | nil => rfl
  | cons o os ih =>
    simp only [heapItems, List.flatMap_cons, ih, objsBytes, HeapItem.bytes, objBytes, Fmt.num, Fmt.padded, pad8,
      List.append_assoc]

theorem heapItems_index (i : Nat) (os : List Bytes) : ∀ x ∈ heapItems i os, i < x.index ∧ x.index ≤ i + os.length ∧ x.refs = 0 := by
  induction os generalizing i with
  | nil => simp [heapItems]
  | cons o os ih =>
    intro x hx
    simp only [heapItems, List.mem_cons] at hx
    rcases hx with rfl | hx
    · simp
    · have := ih (i + 1) x hx
      simp only [List.length_cons]
      omega

theorem heapItems_nodup (i : Nat) (os : List Bytes) : ((heapItems i os).map (·.index)).Nodup := by
  induction os generalizing i with
  | nil => simp [heapItems]
  | cons o os ih =>
    simp only [heapItems, List.map_cons, List.nodup_cons]
    refine ⟨?_, ih _⟩
    intro hm
    obtain ⟨x, hx, he⟩ := List.mem_map.1 hm
    have := heapItems_index _ _ x hx
    omega

theorem heapItems_mem (i : Nat) (os : List Bytes) (j : Nat) (b : Bytes) (h : os[j]? = some b) :
    (⟨i + j + 1, 0, b⟩ : HeapItem) ∈ heapItems i os := by
  induction os generalizing i j with
  | nil => simp at h
  | cons o os ih =>
    cases j with
    | zero =>
      simp only [List.getElem?_cons_zero, Option.some.injEq] at h
      subst h
      simp [heapItems]
    | succ j =>
      simp only [List.getElem?_cons_succ] at h
      have := ih (i + 1) j h
      rw [show i + 1 + j + 1 = i + (j + 1) + 1 by omega] at this
      simp [heapItems, this]

theorem heapBlock_form (os : List Bytes) :
    Fmt.collection (heapItems 0 os) (Fmt.freeSpace (List.replicate (freeSize os - 16) 0) true) = heapBlock os := by
  have hge := freeSize_ge os
  have hf : Fmt.freeSpace (List.replicate (freeSize os - 16) 0) true = freeBytes os := by
    simp only [Fmt.freeSpace, if_true, Fmt.num, List.length_replicate, show 16 + (freeSize os - 16) = freeSize os by omega,
      freeBytes, List.append_assoc]
  rw [hf, Fmt.collection, heapItems_bytes, freeBytes_length, heapBlock]
  simp only [Fmt.num, leEnc1, collSize, List.append_assoc, show leEnc 3 0 = [0, 0, 0] by decide]
  rfl

theorem collectionAt_block {file : Bytes} {addr : Nat} {os : List Bytes} (h : At file addr (heapBlock os))
    (hn : os.length < 65536) : Fmt.CollectionAt file addr (heapItems 0 os) where
  index := fun x hx => by have := heapItems_index 0 os x hx; omega
  nodup := heapItems_nodup 0 os
  bytes := ⟨_, true, by simp, by rw [heapBlock_form]; exact h⟩

/-- Whatever finds the objects of the collections in the file finds those of the writer. -/
theorem HeapFinds.has {file : Bytes} {heap : HeapFn} {H : Heap} (hf : HeapFinds file heap)
    (h : At file H.addr (heapBlock H.objects)) (ha : H.addr < 2 ^ 64)
    (hn : H.objects.length < 65536) : HeapHas heap H := by
  refine ⟨?_, hn⟩
  intro i b hb
  have hmem := heapItems_mem 0 H.objects (i - 1) b hb.2
  have h0 := hb.1
  rw [show 0 + (i - 1) + 1 = i by omega] at hmem
  rw [Nat.mod_eq_of_lt ha]
  exact hf _ _ _ (collectionAt_block h hn) (fun y hy => (heapItems_index 0 _ y hy).2.2) hmem

/-! ### Collections are read in one way -/

theorem HeapItem.bytes_length (x : HeapItem) : x.bytes.length = 16 + (x.data.length + 7) / 8 * 8 := by
  simp only [HeapItem.bytes, Fmt.num, Fmt.padded, List.length_append, leEnc_length, List.length_replicate]
  omega

theorem leEnc_append_inj {n a b : Nat} {p q : Bytes} (h : leEnc n a ++ p = leEnc n b ++ q) (ha : a < 256 ^ n)
    (hb : b < 256 ^ n) : a = b ∧ p = q := by
  obtain ⟨h1, h2⟩ := List.append_inj h (by simp)
  have := congrArg leDec h1
  rw [leDec_leEnc, leDec_leEnc, Nat.mod_eq_of_lt ha, Nat.mod_eq_of_lt hb] at this
  exact ⟨this, h2⟩

/-- What follows the objects. -/
def IsFree (b : Bytes) : Prop := ∃ rest header, (header = false → rest.length < 16) ∧ b = Fmt.freeSpace rest header

theorem HeapItem.bytes_inj {x y : HeapItem} {p q : Bytes} (h : x.bytes ++ p = y.bytes ++ q)
    (hx : x.index < 65536 ∧ x.refs < 65536) (hy : y.index < 65536 ∧ y.refs < 65536)
    (lx : x.data.length < 2 ^ 64) (ly : y.data.length < 2 ^ 64) : x = y ∧ p = q := by
  simp only [HeapItem.bytes, Fmt.num, List.append_assoc] at h
  obtain ⟨h1, h⟩ := leEnc_append_inj h (by simpa using hx.1) (by simpa using hy.1)
  obtain ⟨h2, h⟩ := leEnc_append_inj h (by simpa using hx.2) (by simpa using hy.2)
  obtain ⟨-, h⟩ := leEnc_append_inj h (by decide) (by decide)
  obtain ⟨h3, h⟩ := leEnc_append_inj h (by simpa using lx) (by simpa using ly)
  simp only [Fmt.padded, List.append_assoc, h3] at h
  obtain ⟨h4, h⟩ := List.append_inj h h3
  have h5 := List.append_cancel_left h
  cases x
  cases y
  simp_all

/-- An object is no free space. -/
theorem HeapItem.not_free {x : HeapItem} {p q q' b : Bytes} (hx : 0 < x.index ∧ x.index < 65536) (hb : IsFree b)
    (h : x.bytes ++ p ++ q = b ++ q') (hl : 16 ≤ b.length) : False := by
  obtain ⟨rest, header, h1, rfl⟩ := hb
  cases header with
  | false =>
    simp only [Fmt.freeSpace, Bool.false_eq_true, if_false] at hl
    have := h1 rfl
    omega
  | true =>
    simp only [Fmt.freeSpace, if_true, HeapItem.bytes, Fmt.num, List.append_assoc] at h
    obtain ⟨h1, -⟩ := leEnc_append_inj h (by simpa using hx.2) (by decide)
    omega

theorem items_unique : ∀ (xs ys : List HeapItem) (f g p q : Bytes), IsFree f → IsFree g →
    (∀ x ∈ xs, 0 < x.index ∧ x.index < 65536 ∧ x.refs < 65536) →
    (∀ x ∈ ys, 0 < x.index ∧ x.index < 65536 ∧ x.refs < 65536) →
    (∀ x ∈ xs, x.data.length < 2 ^ 64) → (∀ x ∈ ys, x.data.length < 2 ^ 64) →
    (xs.flatMap HeapItem.bytes ++ f).length = (ys.flatMap HeapItem.bytes ++ g).length →
    xs.flatMap HeapItem.bytes ++ f ++ p = ys.flatMap HeapItem.bytes ++ g ++ q → xs = ys
  | [], [], _, _, _, _, _, _, _, _, _, _, _, _ => rfl
  | [], y :: ys, f, g, p, q, hf, hg, _, hy, _, _, hl, h => by
    exfalso
    have e := HeapItem.bytes_length y
    simp only [List.flatMap_cons, List.flatMap_nil, List.nil_append, List.length_append] at hl
    refine HeapItem.not_free (x := y) (p := ys.flatMap HeapItem.bytes ++ g) (q := q) (q' := p)
      ⟨(hy y (by simp)).1, (hy y (by simp)).2.1⟩ hf ?_ (by omega)
    rw [List.flatMap_cons] at h
    simpa using h.symm
  | x :: xs, [], f, g, p, q, hf, hg, hx, _, _, _, hl, h => by
    exfalso
    have e := HeapItem.bytes_length x
    simp only [List.flatMap_cons, List.flatMap_nil, List.nil_append, List.length_append] at hl
    refine HeapItem.not_free (x := x) (p := xs.flatMap HeapItem.bytes ++ f) (q := p) (q' := q)
      ⟨(hx x (by simp)).1, (hx x (by simp)).2.1⟩ hg ?_ (by omega)
    rw [List.flatMap_cons] at h
    simpa using h
  | x :: xs, y :: ys, f, g, p, q, hf, hg, hx, hy, lx, ly, hl, h => by
    simp only [List.flatMap_cons, List.append_assoc] at h
    obtain ⟨rfl, h⟩ := HeapItem.bytes_inj h (hx x (by simp)).2 (hy y (by simp)).2 (lx x (by simp)) (ly y (by simp))
    simp only [List.flatMap_cons, List.append_assoc, List.length_append] at hl
    rw [items_unique xs ys f g p q hf hg (fun a ha => hx a (by simp [ha])) (fun a ha => hy a (by simp [ha]))
      (fun a ha => lx a (by simp [ha])) (fun a ha => ly a (by simp [ha]))
      (by simp only [List.length_append]; omega) (by simpa using h)]

theorem item_small {xs : List HeapItem} {x : HeapItem} (h : x ∈ xs) :
    x.data.length ≤ (xs.flatMap HeapItem.bytes).length := by
  induction xs with
  | nil => simp at h
  | cons y ys ih =>
    have e := HeapItem.bytes_length y
    rw [List.flatMap_cons, List.length_append]
    rw [List.mem_cons] at h
    rcases h with rfl | h
    · omega
    · have := ih h
      omega

/-- The objects of a collection. -/
theorem collection_unique {file : Bytes} {addr : Nat} {xs ys : List HeapItem} (hf : file.length < 2 ^ 63)
    (h1 : Fmt.CollectionAt file addr xs) (h2 : Fmt.CollectionAt file addr ys) : xs = ys := by
  obtain ⟨r1, b1, c1, p, hp⟩ := h1.bytes
  obtain ⟨r2, b2, c2, q, hq⟩ := h2.bytes
  have l1 := congrArg List.length hp
  have l2 := congrArg List.length hq
  have e := hp.trans hq.symm
  simp only [Fmt.collection, Fmt.num, List.length_append, leEnc_length, List.length_drop, List.length_cons,
    List.length_nil] at l1 l2
  simp only [Fmt.collection, Fmt.num, List.append_assoc] at e
  have e := List.append_cancel_left (List.append_cancel_left (List.append_cancel_left e))
  obtain ⟨s1, s2⟩ := leEnc_append_inj e (by have : (256 : Nat) ^ 8 = 2 ^ 64 := by decide
                                            omega) (by have : (256 : Nat) ^ 8 = 2 ^ 64 := by decide
                                                       omega)
  refine items_unique xs ys _ _ p q ⟨r1, b1, c1, rfl⟩ ⟨r2, b2, c2, rfl⟩ h1.index h2.index ?_ ?_ ?_ (by simpa using s2)
  · intro x hx
    have := item_small hx
    omega
  · intro x hx
    have := item_small hx
    omega
  · simp only [List.length_append]
    omega

theorem index_inj {xs : List HeapItem} (h : (xs.map (·.index)).Nodup) {x y : HeapItem} (hx : x ∈ xs) (hy : y ∈ xs)
    (e : x.index = y.index) : x = y := by
  induction xs with
  | nil => simp at hx
  | cons z zs ih =>
    rw [List.map_cons, List.nodup_cons] at h
    rw [List.mem_cons] at hx hy
    rcases hx with rfl | hx <;> rcases hy with rfl | hy
    · rfl
    · exact absurd (e ▸ List.mem_map_of_mem (f := fun a : HeapItem => a.index) hy) h.1
    · exact absurd (e ▸ List.mem_map_of_mem (f := fun a : HeapItem => a.index) hx) h.1
    · exact ih h.2 hx hy

/-- The objects of all collections of a file can be found. -/
theorem finds_exists (file : Bytes) (hf : file.length < 2 ^ 63) : ∃ heap, HeapFinds file heap := by
  classical
  refine ⟨fun addr idx => if h : ∃ x : HeapItem, x.index = idx ∧ ∃ xs, Fmt.CollectionAt file addr xs ∧ x ∈ xs then
    .ok (if h.choose.data = [] then none else some h.choose.data) else .err .internal, ?_⟩
  intro addr xs x hc _ hx
  have h : ∃ y : HeapItem, y.index = x.index ∧ ∃ xs, Fmt.CollectionAt file addr xs ∧ y ∈ xs := ⟨x, rfl, xs, hc, hx⟩
  simp only [dif_pos h]
  obtain ⟨g1, ys, g2, g3⟩ := h.choose_spec
  have e := collection_unique hf g2 hc
  rw [e] at g3
  rw [index_inj hc.nodup g3 hx g1]

/-! ### Reading any collection -/

theorem HeapItem.bytes_eq {x : HeapItem} (h0 : 0 < x.index) (hr : x.refs = 0) : x.bytes = objBytes (x.index - 1) x.data := by
  simp only [HeapItem.bytes, objBytes, Fmt.num, Fmt.padded, pad8, List.append_assoc, hr,
    show x.index - 1 + 1 = x.index by omega]

/-- What the reader keeps of a collection. -/
def collItems : List HeapItem → Coll → Coll
  | [], acc => acc
  | x :: xs, acc => collItems xs (if x.data = [] then acc else (x.index, x.data) :: acc)

theorem heapLoop_items : ∀ (xs : List HeapItem) (p f csize : Nat) (free : Bytes) (acc : Coll), IsFree free →
    (∀ x ∈ xs, 0 < x.index ∧ x.index < 65536 ∧ x.refs = 0) → xs.length < f → csize < 2 ^ 63 →
    (xs.flatMap HeapItem.bytes ++ free).length = csize →
    heapLoop f csize ⟨p, xs.flatMap HeapItem.bytes ++ free⟩ acc = (collItems xs acc, .ok ())
  | [], p, f, csize, free, acc, hfr, hx, hf, hcs, hc => by
    obtain ⟨f, rfl⟩ : ∃ g, f = g + 1 := ⟨f - 1, by simp at hf; omega⟩
    simp only [List.flatMap_nil, List.nil_append] at hc ⊢
    rw [heapLoop]
    by_cases hlt : csize < 16
    · rw [if_pos hlt]
      rfl
    · rw [if_neg hlt]
      obtain ⟨rest, header, h1, rfl⟩ := hfr
      cases header with
      | false =>
        have := h1 rfl
        simp only [Fmt.freeSpace, Bool.false_eq_true, if_false] at hc
        omega
      | true =>
        have hstep : heapStep csize ⟨p, Fmt.freeSpace rest true⟩ =
            .ok (none, ⟨p + 2, leEnc 2 0 ++ (leEnc 4 0 ++ (leEnc 8 (16 + rest.length) ++ rest))⟩) := by
          simp only [Fmt.freeSpace, if_true, Fmt.num, List.append_assoc, heapStep, P.bind_apply, read16_zero,
            ↓reduceIte, P.pure_apply]
        rw [hstep]
        rfl
  | x :: xs, p, f, csize, free, acc, hfr, hx, hf, hcs, hc => by
    obtain ⟨f, rfl⟩ : ∃ g, f = g + 1 := ⟨f - 1, by simp at hf; omega⟩
    obtain ⟨x0, x1, x2⟩ := hx x (by simp)
    have hl := objBytes_length (x.index - 1) x.data
    simp only [List.flatMap_cons, List.length_append, List.length_cons, HeapItem.bytes_eq x0 x2] at hc hf ⊢
    rw [heapLoop, if_neg (by omega), List.append_assoc, heapStep_obj csize p _ x.data _ (by omega) (by omega) hcs]
    have := fun acc => heapLoop_items xs (p + (objBytes (x.index - 1) x.data).length) f
      (csize - (objBytes (x.index - 1) x.data).length) free acc hfr (fun y hy => hx y (by simp [hy])) (by omega)
      (by omega) (by simp only [List.length_append]; omega)
    by_cases ho : x.data = []
    · rw [if_pos ho]
      simp only [this]
      rw [collItems, if_pos ho]
    · rw [if_neg ho]
      simp only [this]
      rw [collItems, if_neg ho, show x.index - 1 + 1 = x.index by omega]

theorem collItems_other {xs : List HeapItem} {acc : Coll} {j : Nat} (h : j ∉ xs.map (·.index)) :
    (collItems xs acc).lookup j = acc.lookup j := by
  induction xs generalizing acc with
  | nil => rfl
  | cons x xs ih =>
    rw [List.map_cons, List.mem_cons, not_or] at h
    rw [collItems, ih h.2]
    split
    · rfl
    · rw [List.lookup_cons]
      have : (j == x.index) = false := by simpa using h.1
      rw [this]

theorem collItems_lookup {xs : List HeapItem} (hn : (xs.map (·.index)).Nodup) {acc : Coll}
    (ha : ∀ x ∈ xs, acc.lookup x.index = none) {x : HeapItem} (hx : x ∈ xs) :
    (collItems xs acc).lookup x.index = if x.data = [] then none else some x.data := by
  induction xs generalizing acc with
  | nil => simp at hx
  | cons y ys ih =>
    rw [List.map_cons, List.nodup_cons] at hn
    rw [collItems]
    by_cases hxy : x ∈ ys
    · refine ih hn.2 ?_ hxy
      intro z hz
      have hz' := ha z (by simp [hz])
      split
      · exact hz'
      · rw [List.lookup_cons]
        have : (z.index == y.index) = false := by
          rw [beq_eq_false_iff_ne]
          intro e
          exact hn.1 (e ▸ List.mem_map_of_mem (f := fun a : HeapItem => a.index) hz)
        rw [this]
        exact hz'
    · rcases List.mem_cons.1 hx with rfl | h
      · rw [collItems_other hn.1]
        split
        · exact ha x (by simp)
        · simp
      · exact absurd h hxy

theorem items_count (xs : List HeapItem) : xs.length ≤ (xs.flatMap HeapItem.bytes).length := by
  induction xs with
  | nil => simp
  | cons y ys ih =>
    have := HeapItem.bytes_length y
    simp only [List.flatMap_cons, List.length_append, List.length_cons]
    omega

/-- The reader finds the objects of any collection whose reference counts are zero. -/
theorem heapLookup_finds (file : Bytes) (hf : file.length < 2 ^ 63) : HeapFinds file (heapLookup file) := by
  intro addr xs x hc hz hx
  obtain ⟨rest, header, hr, post, hp⟩ := hc.bytes
  have hfr : IsFree (Fmt.freeSpace rest header) := ⟨rest, header, hr, rfl⟩
  generalize Fmt.freeSpace rest header = free at hp hfr
  have hlen := congrArg List.length hp
  simp only [Fmt.collection, Fmt.num, List.length_append, leEnc_length, List.length_cons, List.length_nil,
    List.length_drop] at hlen
  generalize hB : xs.flatMap HeapItem.bytes ++ free = B at *
  have hbl : B.length = (xs.flatMap HeapItem.bytes).length + free.length := by rw [← hB, List.length_append]
  have h16 : 16 ≤ (xs.flatMap HeapItem.bytes).length := by
    obtain ⟨a, b, rfl⟩ := List.append_of_mem hx
    have := HeapItem.bytes_length x
    simp only [List.flatMap_append, List.flatMap_cons, List.length_append]
    omega
  have hdrop : file.drop addr = (ascii "GCOL" ++ (1 :: 0 :: 0 :: 0 :: leEnc 8 (16 + B.length))) ++ (B ++ post) := by
    rw [← hp, ← hB]
    simp only [Fmt.collection, Fmt.num, leEnc1, List.append_assoc, show leEnc 3 0 = [0, 0, 0] by decide,
      List.length_append, Nat.add_assoc]
    rfl
  have hg : (ascii "GCOL").length = 4 := by decide
  have hparse : heapParse file addr = heapLoop (B.length + 1) B.length ⟨0, B⟩ [] := by
    unfold heapParse
    rw [show (16 : Int) = ((16 : Nat) : Int) by rfl, newSeek_block file addr 16 hf (by omega) (by omega)]
    have e1 : (file.drop addr).take 16 = ascii "GCOL" ++ (1 :: 0 :: 0 :: 0 :: (leEnc 8 (16 + B.length) ++ [])) := by
      rw [drop_take_block file addr _ _ 16 hdrop (by simp [hg]), List.append_nil]
    have hz : ∀ rest : Bytes, checkZeroes 3 ⟨0 + 4 + 1, 0 :: 0 :: 0 :: rest⟩ =
        .ok ((), ⟨0 + 4 + 1 + 3, rest⟩) := fun rest => checkZeroes_ok 3 _ rest
    have hhead : heapHeader ⟨0, (file.drop addr).take 16⟩ = .ok (16 + B.length, ⟨16, []⟩) := by
      rw [e1]
      simp only [heapHeader, checkMagic, P.bind_apply, rdN_append 4 _ (ascii "GCOL") _ hg, BEq.rfl,
        P.assert_true, read8_cons, UInt8.reduceToNat, checkVal, hz,
        read64_app _ _ _ (show 16 + B.length < 2 ^ 64 by omega)]
    simp only [hhead]
    rw [show (16 + B.length + (2 ^ 64 - 16)) % 2 ^ 64 = B.length by omega,
      Nat.mod_eq_of_lt (show addr + 16 < 2 ^ 64 by omega), i64_of_lt (by omega),
      newSeek_block file (addr + 16) B.length hf (by omega) (by omega)]
    have e2 : (file.drop (addr + 16)).take B.length = B := by
      refine drop_take_block file (addr + 16) _ post _ ?_ rfl
      rw [← List.drop_drop, hdrop, List.drop_append_of_le_length (by simp [hg])]
      rw [List.drop_of_length_le (by simp [hg])]
      rfl
    simp only [e2]
  have hcount := items_count xs
  rw [heapLookup, hparse, ← hB, heapLoop_items xs 0 _ _ free [] hfr
    (fun y hy => ⟨(hc.index y hy).1, (hc.index y hy).2.1, hz y hy⟩) (by rw [hB]; omega) (by rw [hB]; omega) rfl]
  simp only [Res.ok.injEq]
  exact collItems_lookup hc.nodup (fun _ _ => rfl) hx

end Verif.H5
