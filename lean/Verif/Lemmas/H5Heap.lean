import Verif.Model.H5Heap
import Verif.Lemmas.H5Msg
import Verif.Lemmas.H5Super
/-!
Reading back the global heap of the writer.
-/
namespace Verif.H5

/-- The bytes of one object. -/
def objBytes (i : Nat) (obj : Bytes) : Bytes :=
  leEnc 2 (i + 1) ++ (leEnc 2 0 ++ (leEnc 4 0 ++ (leEnc 8 obj.length ++ (obj ++ pad8 obj.length))))

/-- The bytes of the objects from index `i + 1`. -/
def objsBytes : Nat → List Bytes → Bytes
  | _, [] => []
  | i, o :: os => objBytes i o ++ objsBytes (i + 1) os

theorem objBytes_length (i : Nat) (o : Bytes) :
    (objBytes i o).length = 16 + (o.length + 7) / 8 * 8 := by
  simp only [objBytes, List.length_append, leEnc_length, pad8_length]
  omega

theorem heapObject_eq (buf : Bytes) (i : Nat) (o : Bytes) (h : buf.length % 8 = 0) :
    heapObject buf i o = buf ++ objBytes i o := by
  unfold heapObject
  rw [writePadded_eq _ _ (by simp only [List.length_append, leEnc_length]; omega)]
  simp only [objBytes, List.append_assoc]

theorem heapObjects_eq (os : List Bytes) (buf : Bytes) (i : Nat) (h : buf.length % 8 = 0) :
    heapObjects buf i os = buf ++ objsBytes i os := by
  induction os generalizing buf i with
  | nil => simp [heapObjects, objsBytes]
  | cons o os ih =>
    rw [heapObjects, heapObject_eq _ _ _ h, ih _ _ (by
      simp only [List.length_append, objBytes_length]; omega), objsBytes, List.append_assoc]

theorem objsBytes_mod (os : List Bytes) (i : Nat) : (objsBytes i os).length % 8 = 0 := by
  induction os generalizing i with
  | nil => rfl
  | cons o os ih =>
    have := ih (i + 1)
    simp only [objsBytes, List.length_append, objBytes_length]
    omega

/-- Size of the free space of a collection with the objects `os`. -/
def freeSize (os : List Bytes) : Nat :=
  if 16 + (objsBytes 0 os).length + 16 < 4096 then 4096 - (16 + (objsBytes 0 os).length) else 16

/-- Size of the collection. -/
def collSize (os : List Bytes) : Nat := 16 + (objsBytes 0 os).length + freeSize os

/-- What follows the objects. -/
def freeBytes (os : List Bytes) : Bytes :=
  leEnc 2 0 ++ (leEnc 2 0 ++ (leEnc 4 0 ++ (leEnc 8 (freeSize os) ++
    List.replicate (freeSize os - 16) 0)))

/-- The bytes of a collection. -/
def heapBlock (os : List Bytes) : Bytes :=
  (ascii "GCOL" ++ (1 :: 0 :: 0 :: 0 :: leEnc 8 (collSize os))) ++ (objsBytes 0 os ++ freeBytes os)

theorem freeSize_ge (os : List Bytes) : 16 ≤ freeSize os := by
  unfold freeSize
  split <;> omega

theorem freeBytes_length (os : List Bytes) : (freeBytes os).length = freeSize os := by
  have := freeSize_ge os
  simp only [freeBytes, List.length_append, leEnc_length, List.length_replicate]
  omega

theorem heapBlock_length (os : List Bytes) : (heapBlock os).length = collSize os := by
  simp only [heapBlock, List.length_append, List.length_cons, leEnc_length, freeBytes_length,
    show (ascii "GCOL").length = 4 by decide, collSize]
  omega

/-- The heap is one block at the next multiple of eight. -/
theorem writeGlobalHeap_eq (buf : Bytes) (os : List Bytes) :
    writeGlobalHeap buf os =
      ((buf ++ pad8 buf.length) ++ heapBlock os, (buf ++ pad8 buf.length).length) := by
  have hb : (buf ++ pad8 buf.length).length % 8 = 0 := by
    simp only [List.length_append, pad8_length]
    omega
  generalize hB : buf ++ pad8 buf.length = B at hb
  have hg : (ascii "GCOL").length = 4 := by decide
  unfold writeGlobalHeap
  simp only [hB]
  rw [heapObjects_eq os _ 0 (by
    simp only [List.length_append, List.length_cons, List.length_nil, leEnc_length, hg]; omega)]
  have hcur : (B ++ ascii "GCOL" ++ [1] ++ [0, 0, 0] ++ leEnc 8 0 ++ objsBytes 0 os).length -
      B.length = 16 + (objsBytes 0 os).length := by
    simp only [List.length_append, List.length_cons, List.length_nil, leEnc_length, hg]
    omega
  rw [hcur]
  have hfree : (if 16 + (objsBytes 0 os).length + 16 < 4096 then 4096
      else 16 + (objsBytes 0 os).length + 16) - (16 + (objsBytes 0 os).length) = freeSize os := by
    unfold freeSize
    split <;> omega
  rw [hfree]
  have e1 : B ++ ascii "GCOL" ++ [1] ++ [0, 0, 0] ++ leEnc 8 0 ++ objsBytes 0 os ++ leEnc 2 0 ++
      leEnc 2 0 ++ leEnc 4 0 ++ leEnc 8 (freeSize os) ++ List.replicate (freeSize os - 16) 0 =
      (B ++ ascii "GCOL" ++ [1] ++ [0, 0, 0]) ++ leEnc 8 0 ++ (objsBytes 0 os ++ freeBytes os) := by
    simp only [freeBytes, List.append_assoc]
  rw [e1, putAt_append _ _ _ _ _ rfl (by simp)]
  have e2 : ((B ++ ascii "GCOL" ++ [1] ++ [0, 0, 0]) ++ leEnc 8 0 ++
      (objsBytes 0 os ++ freeBytes os)).length - B.length = collSize os := by
    simp only [List.length_append, List.length_cons, List.length_nil, leEnc_length, hg,
      freeBytes_length, collSize]
    omega
  rw [e2]
  simp only [heapBlock, List.append_assoc, List.cons_append, List.nil_append]

/-- The entries of a collection that have bytes, newest first. -/
def collOf : Nat → List Bytes → Coll → Coll
  | _, [], acc => acc
  | i, o :: os, acc => collOf (i + 1) os (if o = [] then acc else (i + 1, o) :: acc)

theorem heapStep_obj (csize p i : Nat) (o rest : Bytes) (hi : i + 1 < 65536)
    (hc : 16 + (o.length + 7) / 8 * 8 ≤ csize) (hcs : csize < 2 ^ 63) :
    heapStep csize ⟨p, objBytes i o ++ rest⟩ =
      .ok (some (csize - (objBytes i o).length, if o = [] then none else some (i + 1, o)),
        ⟨p + (objBytes i o).length, rest⟩) := by
  rw [objBytes_length]
  have h1 : ¬ i + 1 = 0 := by omega
  have h2 : decide (o.length ≤ csize - 16) = true := by
    simp only [decide_eq_true_eq]; omega
  have hm : (o.length + 7) % 2 ^ 64 / 8 * 8 = (o.length + 7) / 8 * 8 := by
    rw [Nat.mod_eq_of_lt (by omega)]
  have h3 : decide ((o.length + 7) / 8 * 8 ≤ csize - 16) = true := by
    simp only [decide_eq_true_eq]; omega
  simp only [objBytes, List.append_assoc, heapStep, P.bind_apply, read16_app _ _ _ hi,
    read16_zero, h1, ↓reduceIte, checkVal, BEq.rfl, P.assert_true,
    read32_app _ 0 _ (by decide), read64_app _ _ _ (show o.length < 2 ^ 64 by omega), h2, hm, h3]
  by_cases ho : o = []
  · subst ho
    simp [pad8, P.pure_apply]
  · have hl : 0 < o.length := List.length_pos_iff.2 ho
    rw [if_pos hl, if_neg ho]
    have hk : (o.length + 7) / 8 * 8 - o.length = (8 - o.length % 8) % 8 := by omega
    simp only [P.bind_apply, rdN_append o.length _ o _ rfl, skip, hk, P.assert_true,
      rdN_append _ _ (pad8 o.length) _ (pad8_length o.length), P.pure_apply]
    rw [show csize - 16 - (o.length + 7) / 8 * 8 = csize - (16 + (o.length + 7) / 8 * 8) by omega,
      show p + 2 + 2 + 4 + 8 + o.length + (8 - o.length % 8) % 8 =
        p + (16 + (o.length + 7) / 8 * 8) by omega]

theorem heapLoop_objs (os : List Bytes) (i p f csize : Nat) (rest : Bytes) (acc : Coll)
    (hi : i + os.length < 65536) (hf : os.length < f) (hcs : csize < 2 ^ 63)
    (hc : (objsBytes i os).length + 16 ≤ csize) (free : Bytes) (hfree : rest = leEnc 2 0 ++ free) :
    heapLoop f csize ⟨p, objsBytes i os ++ rest⟩ acc = (collOf i os acc, .ok ()) := by
  induction os generalizing i p f csize acc with
  | nil =>
    obtain ⟨f, rfl⟩ : ∃ g, f = g + 1 := ⟨f - 1, by simp at hf; omega⟩
    simp only [objsBytes, List.length_nil] at hc
    have hstep : heapStep csize ⟨p, objsBytes i [] ++ rest⟩ = .ok (none, ⟨p + 2, free⟩) := by
      subst hfree
      simp only [objsBytes, List.nil_append, heapStep, P.bind_apply, read16_zero, ↓reduceIte,
        P.pure_apply]
    rw [heapLoop, if_neg (by omega), hstep]
    rfl
  | cons o os ih =>
    obtain ⟨f, rfl⟩ : ∃ g, f = g + 1 := ⟨f - 1, by simp at hf; omega⟩
    simp only [objsBytes, List.length_append, List.length_cons] at hc hi hf
    have hl := objBytes_length i o
    rw [heapLoop, if_neg (by omega), objsBytes, List.append_assoc,
      heapStep_obj csize p i o _ (by omega) (by omega) hcs]
    have := fun acc => ih (i + 1) (p + (objBytes i o).length) f (csize - (objBytes i o).length) acc
      (by omega) (by omega) (by omega) (by omega)
    by_cases ho : o = []
    · rw [if_pos ho]
      simp only [this]
      rw [collOf, if_pos ho]
    · rw [if_neg ho]
      simp only [this]
      rw [collOf, if_neg ho]

theorem objsBytes_ge (os : List Bytes) (i : Nat) : 16 * os.length ≤ (objsBytes i os).length := by
  induction os generalizing i with
  | nil => simp
  | cons o os ih =>
    have := ih (i + 1)
    simp only [objsBytes, List.length_append, objBytes_length, List.length_cons]
    omega

theorem drop_take_block (file : Bytes) (addr : Nat) (b post : Bytes) (n : Nat)
    (h : file.drop addr = b ++ post) (hn : b.length = n) : (file.drop addr).take n = b := by
  subst hn
  rw [h, List.take_left]

theorem objsBytes_append (a b : List Bytes) (i : Nat) :
    objsBytes i (a ++ b) = objsBytes i a ++ objsBytes (i + a.length) b := by
  induction a generalizing i with
  | nil => rfl
  | cons o a ih =>
    simp only [List.cons_append, objsBytes, ih, List.append_assoc, List.length_cons]
    rw [Nat.add_assoc, Nat.add_comm 1]

theorem heapParse_head (file : Bytes) (addr : Nat) (os : List Bytes) (post : Bytes)
    (hf : file.length < 2 ^ 63) (h : file.drop addr = heapBlock os ++ post) :
    heapParse file addr = heapLoop ((objsBytes 0 os ++ freeBytes os).length + 1) (collSize os - 16)
      ⟨0, objsBytes 0 os ++ freeBytes os⟩ [] := by
  have hlen : addr + collSize os ≤ file.length := by
    have := congrArg List.length h
    simp only [List.length_drop, List.length_append, heapBlock_length] at this
    have h16 := freeSize_ge os
    unfold collSize at this ⊢
    omega
  have hge := freeSize_ge os
  have hcs : collSize os = 16 + (objsBytes 0 os).length + freeSize os := rfl
  have hg : (ascii "GCOL").length = 4 := by decide
  unfold heapParse
  rw [show (16 : Int) = ((16 : Nat) : Int) by rfl, newSeek_block file addr 16 hf (by omega) (by omega)]
  have e1 : (file.drop addr).take 16 = ascii "GCOL" ++ (1 :: 0 :: 0 :: 0 :: (leEnc 8 (collSize os) ++ [])) := by
    rw [drop_take_block file addr
      (ascii "GCOL" ++ (1 :: 0 :: 0 :: 0 :: leEnc 8 (collSize os)))
      ((objsBytes 0 os ++ freeBytes os) ++ post) 16
      (by rw [h, heapBlock, List.append_assoc]) (by simp [hg]), List.append_nil]
  have hz : ∀ rest : Bytes, checkZeroes 3 ⟨0 + 4 + 1, 0 :: 0 :: 0 :: rest⟩ =
      .ok ((), ⟨0 + 4 + 1 + 3, rest⟩) := fun rest => checkZeroes_ok 3 _ rest
  have hhead : heapHeader ⟨0, (file.drop addr).take 16⟩ = .ok (collSize os, ⟨16, []⟩) := by
    rw [e1]
    simp only [heapHeader, checkMagic, P.bind_apply, rdN_append 4 _ (ascii "GCOL") _ hg, BEq.rfl,
      P.assert_true, read8_cons, UInt8.reduceToNat, checkVal, hz,
      read64_app _ _ _ (show collSize os < 2 ^ 64 by omega)]
  simp only [hhead]
  rw [show (collSize os + (2 ^ 64 - 16)) % 2 ^ 64 = collSize os - 16 by omega,
    Nat.mod_eq_of_lt (show addr + 16 < 2 ^ 64 by omega), i64_of_lt (by omega),
    newSeek_block file (addr + 16) (collSize os - 16) hf (by omega) (by omega)]
  have e2 : (file.drop (addr + 16)).take (collSize os - 16) = objsBytes 0 os ++ freeBytes os := by
    refine drop_take_block file (addr + 16) _ post _ ?_ ?_
    · rw [← List.drop_drop, h, heapBlock, List.append_assoc,
        List.drop_append_of_le_length (by simp [hg])]
      rw [List.drop_of_length_le (by simp [hg])]
      rfl
    · simp only [List.length_append, freeBytes_length]
      omega
  simp only [e2]

/-- Parsing the collection of the writer. -/
theorem heapParse_ok (file : Bytes) (addr : Nat) (os : List Bytes) (post : Bytes)
    (hf : file.length < 2 ^ 63) (h : file.drop addr = heapBlock os ++ post)
    (hn : os.length < 65536) :
    heapParse file addr = (collOf 0 os [], .ok ()) := by
  have hlen : addr + collSize os ≤ file.length := by
    have := congrArg List.length h
    simp only [List.length_drop, List.length_append, heapBlock_length] at this
    have h16 := freeSize_ge os
    unfold collSize at this ⊢
    omega
  have hge := freeSize_ge os
  have hcs : collSize os = 16 + (objsBytes 0 os).length + freeSize os := rfl
  rw [heapParse_head file addr os post hf h]
  refine heapLoop_objs os 0 0 _ _ _ [] (by omega) ?_ (by omega) (by omega) _ rfl
  have := objsBytes_ge os 0
  simp only [List.length_append]
  omega

/-- Parsing a collection of more than 65535 objects: it ends before the object 65536, whose index is
written as 0. -/
theorem heapParse_wrap (file : Bytes) (addr : Nat) (os : List Bytes) (o post : Bytes)
    (os'' : List Bytes)
    (hf : file.length < 2 ^ 63) (h : file.drop addr = heapBlock (os ++ o :: os'') ++ post)
    (hn : os.length = 65535) :
    heapParse file addr = (collOf 0 os [], .ok ()) := by
  have hlen : addr + collSize (os ++ o :: os'') ≤ file.length := by
    have := congrArg List.length h
    simp only [List.length_drop, List.length_append, heapBlock_length] at this
    have h16 := freeSize_ge (os ++ o :: os'')
    unfold collSize at this ⊢
    omega
  have hge := freeSize_ge (os ++ o :: os'')
  have hcs : collSize (os ++ o :: os'') =
    16 + (objsBytes 0 (os ++ o :: os'')).length + freeSize (os ++ o :: os'') := rfl
  rw [heapParse_head file addr _ post hf h]
  have he : objsBytes 0 (os ++ o :: os'') = objsBytes 0 os ++ objsBytes 65535 (o :: os'') := by
    rw [objsBytes_append, hn, Nat.zero_add]
  have hw : (leEnc 2 (65535 + 1) : Bytes) = leEnc 2 0 := by decide
  rw [he] at hcs ⊢
  simp only [List.length_append] at hcs
  rw [List.append_assoc]
  refine heapLoop_objs os 0 0 _ _ _ [] (by omega) ?_ (by omega) (by omega)
    (leEnc 2 0 ++ (leEnc 4 0 ++ (leEnc 8 o.length ++ (o ++ pad8 o.length))) ++
      objsBytes (65535 + 1) os'' ++ freeBytes (os ++ o :: os'')) ?_
  · have := objsBytes_ge os 0
    simp only [List.length_append]
    omega
  · rw [objsBytes, objBytes, hw]
    simp only [List.append_assoc]

theorem collOf_lookup (os : List Bytes) (i : Nat) (acc : Coll) (j : Nat) :
    (collOf i os acc).lookup j =
      if i < j ∧ j ≤ i + os.length ∧ os.getD (j - i - 1) [] ≠ [] then
        some (os.getD (j - i - 1) []) else acc.lookup j := by
  induction os generalizing i acc with
  | nil =>
    rw [collOf, if_neg (by simp)]
  | cons o os ih =>
    rw [collOf, ih]
    by_cases hj : j = i + 1
    · subst hj
      rw [if_neg (by omega)]
      have e : i + 1 - i - 1 = 0 := by omega
      rw [e, List.getD_cons_zero]
      by_cases ho : o = []
      · rw [if_pos ho, if_neg (by simp [ho])]
      · rw [if_neg ho, if_pos ⟨by omega, by simp, ho⟩]
        simp
    · have hacc : ((if o = [] then acc else (i + 1, o) :: acc) : Coll).lookup j =
          acc.lookup j := by
        split
        · rfl
        · rw [List.lookup_cons]
          have : (j == i + 1) = false := by simpa using hj
          rw [this]
      rw [hacc]
      by_cases hlt : i < j
      · have e : j - i - 1 = (j - (i + 1) - 1) + 1 := by omega
        rw [e, List.getD_cons_succ, List.length_cons]
        by_cases hc : i + 1 < j ∧ j ≤ i + 1 + os.length ∧ os.getD (j - (i + 1) - 1) [] ≠ []
        · rw [if_pos hc, if_pos ⟨hlt, by omega, hc.2.2⟩]
        · rw [if_neg hc, if_neg (by intro h; exact hc ⟨by omega, by omega, h.2.2⟩)]
      · rw [if_neg (by omega), if_neg (by omega)]

/-- The object at an index of the heap. -/
theorem heapLookup_ok (file : Bytes) (addr : Nat) (os : List Bytes) (post : Bytes) (j : Nat)
    (hf : file.length < 2 ^ 63) (h : file.drop addr = heapBlock os ++ post)
    (hn : os.length < 65536) (hj : j < os.length) :
    heapLookup file addr (j + 1) =
      .ok (if os[j] = [] then none else some os[j]) := by
  have e : os.getD (j + 1 - 0 - 1) [] = os[j] := by
    simp [List.getD_eq_getElem?_getD, List.getElem?_eq_getElem hj]
  simp only [heapLookup, heapParse_ok file addr os post hf h hn, collOf_lookup, e]
  by_cases ho : os[j] = []
  · rw [if_neg (by simp [ho]), if_pos ho]
    rfl
  · rw [if_pos ⟨by omega, by omega, ho⟩, if_neg ho]

/-- The object at an index no object has. -/
theorem heapLookup_none (file : Bytes) (addr : Nat) (os : List Bytes) (post : Bytes) (j : Nat)
    (hf : file.length < 2 ^ 63) (h : file.drop addr = heapBlock os ++ post)
    (hn : os.length < 65536) (hj : j = 0 ∨ os.length < j) :
    heapLookup file addr j = .ok none := by
  simp only [heapLookup, heapParse_ok file addr os post hf h hn, collOf_lookup]
  rw [if_neg (by omega)]
  rfl

/-- The cache holds parsed collections only. -/
def CacheOK (file : Bytes) (cache : HeapCache) : Prop :=
  ∀ a c, cache.lookup a = some c → heapParse file a = (c, .ok ())

theorem readGlobalHeap_ok (file : Bytes) (cache : HeapCache) (addr idx : Nat)
    (hc : CacheOK file cache) (hp : (heapParse file addr).2 = .ok ()) :
    (readGlobalHeap file cache addr idx).2 = heapLookup file addr idx ∧
      CacheOK file (readGlobalHeap file cache addr idx).1 := by
  unfold readGlobalHeap heapLookup
  cases hl : cache.lookup addr with
  | some c =>
    simp only [hc addr c hl]
    exact ⟨trivial, hc⟩
  | none =>
    cases hq : heapParse file addr with
    | mk c r =>
      rw [hq] at hp
      simp only at hp
      subst hp
      refine ⟨rfl, ?_⟩
      intro a d had
      simp only [List.lookup_cons] at had
      by_cases h : a = addr
      · subst h
        simp only [BEq.rfl, Option.some.injEq] at had
        rw [← had]
        exact hq
      · have : (a == addr) = false := by simpa using h
        rw [this] at had
        exact hc a d had

theorem heapCalls_ok (file : Bytes) (cs : List (Nat × Nat)) (cache : HeapCache)
    (hc : CacheOK file cache) (hp : ∀ x ∈ cs, (heapParse file x.1).2 = .ok ()) :
    heapCalls file cache cs = cs.map fun x => heapLookup file x.1 x.2 := by
  induction cs generalizing cache with
  | nil => rfl
  | cons x cs ih =>
    have h1 := readGlobalHeap_ok file cache x.1 x.2 hc (hp x (by simp))
    rw [heapCalls]
    simp only [List.map_cons, h1.1, ih _ h1.2 (fun y hy => hp y (by simp [hy]))]

end Verif.H5
