import Verif.Spec.H5Index
import Verif.Model.H5Data
import Verif.Lemmas.H5Header
import Verif.Lemmas.H5Msg
/-!
Reading the index of chunks.
-/
namespace Verif.H5

/-! ### Positions -/

/-- Position of an element without wrap-around. -/
def keyRev : List Nat → List Nat → Nat → Nat
  | o :: os, d :: ds, s => o * s + keyRev os ds (s * d)
  | _, _, _ => 0

theorem keyRev_append : ∀ (os ds : List Nat) (o d s : Nat), os.length = ds.length →
    keyRev (os ++ [o]) (ds ++ [d]) s = keyRev os ds s + o * (s * prod ds) := by
  intro os
  induction os with
  | nil =>
    intro ds o d s h
    cases ds with
    | nil => simp [keyRev, prod]
    | cons _ _ => simp at h
  | cons x xs ih =>
    intro ds o d s h
    cases ds with
    | nil => simp at h
    | cons y ys =>
      simp only [List.cons_append, keyRev, prod]
      rw [ih ys o d (s * y) (by simpa using h)]
      rw [Nat.add_assoc, Nat.mul_assoc s y]

theorem prod_append (xs ys : List Nat) : prod (xs ++ ys) = prod xs * prod ys := by
  induction xs with
  | nil => simp [prod]
  | cons x xs ih => simp only [List.cons_append, prod, ih, Nat.mul_assoc]

theorem prod_reverse (xs : List Nat) : prod xs.reverse = prod xs := by
  induction xs with
  | nil => rfl
  | cons x xs ih => rw [List.reverse_cons, prod_append, ih]; simp only [prod]; rw [Nat.mul_one, Nat.mul_comm]

theorem keyRev_reverse : ∀ (os ds : List Nat) (s : Nat), os.length = ds.length →
    keyRev os.reverse ds.reverse s = rowIndex ds os * s := by
  intro os
  induction os with
  | nil =>
    intro ds s h
    cases ds with
    | nil => simp [keyRev, rowIndex]
    | cons _ _ => simp at h
  | cons x xs ih =>
    intro ds s h
    cases ds with
    | nil => simp at h
    | cons y ys =>
      simp only [List.reverse_cons]
      rw [keyRev_append _ _ _ _ _ (by simpa using h), ih ys s (by simpa using h), prod_reverse, rowIndex,
        Nat.add_mul, Nat.add_comm, Nat.mul_assoc x, Nat.mul_comm (prod ys)]

theorem keyOffsetRev_eq : ∀ (os ds : List Nat) (s : Nat), s * prod ds < 2 ^ 64 → (∀ d ∈ ds, 0 < d) →
    keyRev os ds s < 2 ^ 64 → keyOffsetRev os ds s = keyRev os ds s := by
  intro os
  induction os with
  | nil => intro ds s _ _ _; cases ds <;> rfl
  | cons o os ih =>
    intro ds s h1 h2 h3
    cases ds with
    | nil => rfl
    | cons d ds =>
      have hpos : 0 < prod ds := by
        have h2' : ∀ e ∈ ds, 0 < e := fun e he => h2 e (List.mem_cons_of_mem _ he)
        clear ih h1 h3 h2
        induction ds with
        | nil => simp [prod]
        | cons a as iha =>
          simp only [prod]
          exact Nat.mul_pos (h2' a List.mem_cons_self) (iha fun e he => h2' e (List.mem_cons_of_mem _ he))
      simp only [prod] at h1
      rw [← Nat.mul_assoc] at h1
      have h4 : s * d < 2 ^ 64 := Nat.lt_of_le_of_lt (Nat.le_mul_of_pos_right _ hpos) h1
      simp only [keyRev] at h3
      simp only [keyOffsetRev, keyRev]
      rw [Nat.mod_eq_of_lt h4, ih ds (s * d) h1 (fun e he => h2 e (List.mem_cons_of_mem _ he)) (by omega),
        Nat.mod_eq_of_lt h3]

/-- `calculateFlatOffsetFromKeys` gives the position of an element. -/
theorem keyOffset_eq {os ds : List Nat} {s : Nat} (hl : os.length = ds.length) (hd : ∀ d ∈ ds, 0 < d)
    (h1 : s * prod ds < 2 ^ 64) (h2 : rowIndex ds os * s < 2 ^ 64) : keyOffset os ds s = rowIndex ds os * s := by
  unfold keyOffset
  simp only [hl, Nat.min_self]
  rw [← hl, List.take_length, hl, List.take_length]
  rw [keyOffsetRev_eq _ _ _ (by rwa [prod_reverse]) (by simpa using hd) (by rwa [keyRev_reverse _ _ _ hl]),
    keyRev_reverse _ _ _ hl]

/-! ### Nodes -/

theorem nodeHead_length (level n left right : Nat) : (nodeHead level n left right).length = 24 := by
  simp [nodeHead, ascii]

theorem keyBytes_length {rank : Nat} {k : Key} (h : KeyOK rank k) : (keyBytes k).length = 16 + 8 * rank := by
  have : (k.offsets.flatMap (leEnc 8)).length = 8 * rank := by
    rw [← h.2.2.1]
    induction k.offsets with
    | nil => rfl
    | cons o os ih => simp only [List.flatMap_cons, List.length_append, leEnc_length, ih, List.length_cons]; omega
  simp only [keyBytes, List.length_append, leEnc_length, this]
  omega

theorem readNodeHead_ok {top : Bool} {level n left right p : Nat} {rest : Bytes} (hl : level < 256)
    (hn : n < 65536) (hs : Siblings top left right) :
    readNodeHead top ⟨p, nodeHead level n left right ++ rest⟩ = .ok ((level, n), ⟨p + 24, rest⟩) := by
  obtain ⟨h1, h2, h3⟩ := hs
  have hb : (!top || (left == invalidAddress && right == invalidAddress)) = true := by
    cases top with
    | false => rfl
    | true => obtain ⟨rfl, rfl⟩ := h3 rfl; rfl
  simp only [nodeHead, List.append_assoc]
  simp only [readNodeHead, P.bind_apply]
  rw [checkMagic_app (ascii "TREE") _ p 4 rfl]
  simp only [read8_app _ 1 _ (by decide), checkVal, BEq.rfl, ↓reduceIte, P.assert_true, P.pure_apply, P.bind_apply,
    read8_app _ level _ hl, read16_app _ n _ hn, read64_app _ left _ h1, read64_app _ right _ h2, hb]

theorem readEntry_last {rank p : Nat} {k : Key} {rest : Bytes} (h : KeyOK rank k) :
    readEntry rank true ⟨p, keyBytes k ++ rest⟩ = .ok (⟨k.size, k.mask, k.offsets, 0⟩, ⟨p + (16 + 8 * rank), rest⟩) := by
  obtain ⟨h1, h2, h3, h4⟩ := h
  simp only [keyBytes, List.append_assoc]
  subst h3
  simp only [readEntry, P.bind_apply, read32_app _ _ _ h1, read32_app _ _ _ h2, read64s_ok _ _ _ h4,
    read64_app _ 0 _ (by decide), ↓reduceIte, P.pure_apply]
  congr 3
  omega

theorem readEntry_addr {rank p a : Nat} {k : Key} {rest : Bytes} (h : KeyOK rank k) (ha : a < 2 ^ 64) :
    readEntry rank false ⟨p, (keyBytes k ++ leEnc 8 a) ++ rest⟩ =
      .ok (⟨k.size, k.mask, k.offsets, a⟩, ⟨p + (24 + 8 * rank), rest⟩) := by
  obtain ⟨h1, h2, h3, h4⟩ := h
  simp only [keyBytes, List.append_assoc]
  subst h3
  simp only [readEntry, P.bind_apply, read32_app _ _ _ h1, read32_app _ _ _ h2, read64s_ok _ _ _ h4,
    read64_app _ 0 _ (by decide), Bool.false_eq_true, ↓reduceIte, P.pure_apply, read64_app _ _ _ ha]
  congr 3
  omega

/-- The entry for a key. -/
def Key.entry (k : Key) (a : Nat) : BEntry := ⟨k.size, k.mask, k.offsets, a⟩
/-- The entry for a chunk. -/
def Chunk.entry (c : Chunk) : BEntry := ⟨c.size, c.mask, c.offsets, c.addr⟩

/-- The entries of a node. -/
def Kids.entries : Kids → List BEntry
  | .last k => [k.entry 0]
  | .cons k a _ rest => k.entry a :: rest.entries

theorem readEntries_leaf {rank : Nat} {last : Key} (hk : KeyOK rank last) :
    ∀ (cs : List Chunk) (p : Nat) (rest : Bytes), (∀ c ∈ cs, ChunkOK rank c) →
      ∃ q, readEntries rank cs.length ⟨p, cs.flatMap chunkBytes ++ keyBytes last ++ rest⟩ =
        .ok (cs.map Chunk.entry ++ [last.entry 0], ⟨q, rest⟩) := by
  intro cs
  induction cs with
  | nil =>
    intro p rest _
    simp only [List.length_nil, List.flatMap_nil, List.nil_append, readEntries, P.bind_apply,
      readEntry_last hk, P.pure_apply, List.map_nil]
    exact ⟨_, rfl⟩
  | cons c cs ih =>
    intro p rest hc
    obtain ⟨hc1, hc2⟩ := hc c List.mem_cons_self
    obtain ⟨q, hq⟩ := ih (p + (24 + 8 * rank)) rest (fun d hd => hc d (List.mem_cons_of_mem _ hd))
    refine ⟨q, ?_⟩
    simp only [List.flatMap_cons, List.length_cons, readEntries, P.bind_apply]
    rw [List.append_assoc, List.append_assoc, chunkBytes, readEntry_addr hc1 hc2]
    simp only [← List.append_assoc, hq, P.pure_apply, List.map_cons, List.cons_append]
    rfl

theorem readEntries_kids {file : Bytes} {rank : Nat} : ∀ (ks : Kids) (p : Nat) (rest : Bytes), ks.Stored file rank →
      ∃ q, readEntries rank ks.count ⟨p, ks.bytes ++ rest⟩ = .ok (ks.entries, ⟨q, rest⟩) := by
  intro ks
  induction ks using Kids.rec (motive_1 := fun _ => True) with
  | leaf => trivial
  | node => trivial
  | last k =>
    intro p rest h
    simp only [Kids.Stored] at h
    simp only [Kids.count, Kids.bytes, readEntries, P.bind_apply, readEntry_last h, P.pure_apply, Kids.entries]
    exact ⟨_, rfl⟩
  | cons k a t rest' _ ih =>
    intro p rest h
    simp only [Kids.Stored] at h
    obtain ⟨q, hq⟩ := ih (p + (24 + 8 * rank)) rest h.2.2.2
    refine ⟨q, ?_⟩
    simp only [Kids.count, Kids.bytes, readEntries, P.bind_apply]
    rw [List.append_assoc, readEntry_addr h.1 h.2.1]
    simp only [hq, P.pure_apply, Kids.entries]
    rfl

/-! ### The chunks that are found -/

/-- The block of a chunk. -/
def Chunk.toD (len : Nat) (c : Chunk) : DBlock := ⟨.at c.addr c.size, len, c.mask, c.offsets⟩

mutual
/-- Every chunk below a node starts at its key or later, and ends before the next key, unless the
whole variable is read; `pos` is the
position of the byte where a key starts and `len` is the number of bytes of a chunk. A key at
position zero stands for no limit. -/
def Index.Ordered (whole : Prop) (pos : List Nat → Nat) (len : Nat) : Index → Prop
  | .leaf _ _ => True
  | .node _ kids => kids.Ordered whole pos len
/-- The same for the nodes below a node. -/
def Kids.Ordered (whole : Prop) (pos : List Nat → Nat) (len : Nat) : Kids → Prop
  | .last _ => True
  | .cons k _ t rest =>
    (∀ c ∈ t.chunks, pos k.offsets ≤ pos c.offsets ∧
      (whole ∨ pos rest.first.offsets = 0 ∨ pos c.offsets + len ≤ pos rest.first.offsets)) ∧
    t.Ordered whole pos len ∧ rest.Ordered whole pos len
end

theorem nodeBlocks_leaf {sub : Nat → Res (List DBlock)} {dims : List Nat} {dtSize nElems first last : Nat}
    {pos : List Nat → Nat} {k : Key} (hlen : 0 < nElems * dtSize) :
    ∀ (cs : List Chunk), (∀ c ∈ cs, keyOffset c.offsets dims dtSize = pos c.offsets ∧
        pos c.offsets + nElems * dtSize < 2 ^ 64) →
      nodeBlocks sub dims dtSize nElems 0 first last (cs.map Chunk.entry ++ [k.entry 0]) =
        .ok ((cs.filter (overlaps pos (nElems * dtSize) first last)).map (Chunk.toD (nElems * dtSize))) := by
  intro cs
  induction cs with
  | nil => intro _; rfl
  | cons c cs ih =>
    intro h
    obtain ⟨h1, h2⟩ := h c List.mem_cons_self
    have ih' := ih fun d hd => h d (List.mem_cons_of_mem _ hd)
    obtain ⟨e, es, hes⟩ : ∃ e es, cs.map Chunk.entry ++ [k.entry 0] = e :: es := by
      cases cs with
      | nil => exact ⟨_, _, rfl⟩
      | cons => exact ⟨_, _, rfl⟩
    rw [List.map_cons, List.cons_append, hes]
    rw [hes] at ih'
    have hpr : pruned first last (pos c.offsets) ((pos c.offsets + nElems * dtSize) % 2 ^ 64) =
        !overlaps pos (nElems * dtSize) first last c := by
      rw [Nat.mod_eq_of_lt h2]
      unfold pruned overlaps
      rw [Bool.eq_iff_iff]
      simp only [Bool.or_eq_true, Bool.and_eq_true, Bool.not_eq_true', Bool.and_eq_false_iff, decide_eq_true_eq,
        decide_eq_false_iff_not]
      omega
    unfold nodeBlocks
    simp only [Chunk.entry, h1, ↓reduceIte, hpr, List.filter_cons, ih', Res.bind_ok, Res.pure_eq]
    cases hov : overlaps pos (nElems * dtSize) first last c with
    | false => simp
    | true =>
      simp only [Bool.not_true, Bool.false_eq_true, ↓reduceIte, List.map_cons, List.singleton_append, Chunk.toD]
      rw [Nat.mod_eq_of_lt (by omega)]

theorem Kids.entries_cons (ks : Kids) : ∃ e es, ks.entries = e :: es ∧ e.offsets = ks.first.offsets := by
  cases ks <;> exact ⟨_, _, rfl, rfl⟩

theorem Kids.first_mem (ks : Kids) : ks.first ∈ ks.keys := by
  cases ks <;> simp [Kids.first, Kids.keys]

theorem Kids.bytes_length {file : Bytes} {rank : Nat} (ks : Kids) : ks.Stored file rank →
    ks.bytes.length = ks.count * (24 + 8 * rank) + 16 + 8 * rank := by
  induction ks using Kids.rec (motive_1 := fun _ => True) with
  | leaf => trivial
  | node => trivial
  | last k =>
    intro h
    simp only [Kids.Stored] at h
    rw [Kids.bytes, Kids.count, keyBytes_length h]
    omega
  | cons k a t rest _ ih =>
    intro h
    simp only [Kids.Stored] at h
    simp only [Kids.bytes, Kids.count, List.length_append, leEnc_length, keyBytes_length h.1, ih h.2.2.2, Nat.add_mul]
    omega

theorem chunks_length {rank : Nat} (cs : List Chunk) (h : ∀ c ∈ cs, ChunkOK rank c) :
    (cs.flatMap chunkBytes).length = cs.length * (24 + 8 * rank) := by
  induction cs with
  | nil => simp
  | cons c cs ih =>
    simp only [List.flatMap_cons, List.length_append, List.length_cons, chunkBytes, leEnc_length,
      keyBytes_length (h c List.mem_cons_self).1, ih fun d hd => h d (List.mem_cons_of_mem _ hd), Nat.add_mul]
    omega

/-- Reading the index gives the chunks that overlap the range, all of them and in their order. -/
theorem readBTree_ok {file : Bytes} {dims : List Nat} {dtSize nElems rank first last : Nat} {pos : List Nat → Nat} {whole : Prop}
    (hw : whole → first = 0) (hf : file.length < 2 ^ 63) (hlen : 0 < nElems * dtSize) (hrank : rank + 1 < 256) (t : Index) :
    ∀ (fuel : Nat) (top : Bool) (addr : Nat), t.depth ≤ fuel → t.Stored file rank top addr →
      t.Ordered whole pos (nElems * dtSize) →
      (∀ k ∈ t.keys, keyOffset k.offsets dims dtSize = pos k.offsets) →
      (∀ c ∈ t.chunks, keyOffset c.offsets dims dtSize = pos c.offsets ∧ pos c.offsets + nElems * dtSize < 2 ^ 64) →
      readBTree file dims dtSize nElems (rank + 1) first last fuel top addr =
        .ok ((t.chunks.filter (overlaps pos (nElems * dtSize) first last)).map (Chunk.toD (nElems * dtSize))) := by
  have hdim : (rank + 1 + 255) % 256 = rank := by omega
  induction t using Index.rec (motive_2 := fun ks => ∀ (fuel level : Nat), 0 < level → ks.depth ≤ fuel → ks.Stored file rank →
      ks.Ordered whole pos (nElems * dtSize) →
      (∀ k ∈ ks.keys, keyOffset k.offsets dims dtSize = pos k.offsets) →
      (∀ c ∈ ks.chunks, keyOffset c.offsets dims dtSize = pos c.offsets ∧ pos c.offsets + nElems * dtSize < 2 ^ 64) →
      nodeBlocks (readBTree file dims dtSize nElems (rank + 1) first last fuel false) dims dtSize nElems level first last ks.entries =
        .ok ((ks.chunks.filter (overlaps pos (nElems * dtSize) first last)).map (Chunk.toD (nElems * dtSize)))) with
  | leaf cs k =>
    intro fuel top addr hd hst _ _ hcs
    simp only [Index.depth] at hd
    obtain ⟨fuel, rfl⟩ : ∃ f, fuel = f + 1 := ⟨fuel - 1, by omega⟩
    simp only [Index.Stored] at hst
    obtain ⟨hn, hk, hc, left, right, hs, hat⟩ := hst
    have h1 := hat.app.1
    have h2 := hat.app.2
    have hle := h2.le (by
      have := keyBytes_length hk
      intro e
      have := congrArg List.length e
      simp only [List.length_append, List.length_nil] at this
      omega)
    rw [nodeHead_length] at h2 hle
    unfold readBTree
    have h24 := seekRun_at (readNodeHead top) h1 (nodeHead_length _ _ _ _) hf (by decide)
    rw [show ((24 : Nat) : Int) = 24 from rfl] at h24
    rw [h24]
    have hh := readNodeHead_ok (p := 0) (rest := []) (level := 0) (by decide) (show cs.length < 65536 by omega) hs
    rw [List.append_nil] at hh
    simp only [hh, Res.map, Res.bind_ok]
    rw [if_neg (by omega), Nat.mod_eq_of_lt (by omega), hdim]
    have hlen' : (cs.flatMap chunkBytes ++ keyBytes k).length = cs.length * (24 + 8 * (rank + 1 - 1)) + 16 + 8 * (rank + 1 - 1) := by
      rw [List.length_append, chunks_length cs hc, keyBytes_length hk, Nat.add_sub_cancel]
      omega
    rw [seekRun_at _ h2 hlen' hf (by omega)]
    obtain ⟨q, hq⟩ := readEntries_leaf hk cs 0 [] hc
    rw [List.append_nil] at hq
    rw [hq]
    simp only [Res.map, Res.bind_ok]
    exact nodeBlocks_leaf hlen cs hcs
  | node level ks ih =>
    intro fuel top addr hd hst hord hkeys hcs
    simp only [Index.depth] at hd
    obtain ⟨fuel, rfl⟩ : ∃ f, fuel = f + 1 := ⟨fuel - 1, by omega⟩
    simp only [Index.Stored] at hst
    obtain ⟨hlev, hlev2, hn, ⟨left, right, hs, hat⟩, hkst⟩ := hst
    have h1 := hat.app.1
    have h2 := hat.app.2
    have hbl := Kids.bytes_length ks hkst
    have hle := h2.le (by
      intro e
      have := congrArg List.length e
      simp only [List.length_nil] at this
      omega)
    rw [nodeHead_length] at h2 hle
    unfold readBTree
    have h24 := seekRun_at (readNodeHead top) h1 (nodeHead_length _ _ _ _) hf (by decide)
    rw [show ((24 : Nat) : Int) = 24 from rfl] at h24
    rw [h24]
    have hh := readNodeHead_ok (p := 0) (rest := []) hlev2 (show ks.count < 65536 by omega) hs
    rw [List.append_nil] at hh
    simp only [hh, Res.map, Res.bind_ok]
    rw [if_neg (by omega), Nat.mod_eq_of_lt (by omega), hdim]
    rw [seekRun_at _ h2 (by rw [hbl, Nat.add_sub_cancel]) hf (by omega)]
    obtain ⟨q, hq⟩ := readEntries_kids ks 0 [] hkst
    rw [List.append_nil] at hq
    rw [hq]
    simp only [Res.map, Res.bind_ok]
    exact ih fuel level hlev (by omega) hkst (by simpa [Index.Ordered] using hord) (by simpa [Index.keys] using hkeys)
      (by simpa [Index.chunks] using hcs)
  | last k =>
    rfl
  | cons k a t rest iht ihr =>
    rename_i fuel level hlev hd hst hord hkeys hcs
    simp only [Kids.depth] at hd
    simp only [Kids.Stored] at hst
    simp only [Kids.Ordered] at hord
    simp only [Kids.keys, List.mem_cons, List.mem_append] at hkeys
    simp only [Kids.chunks, List.mem_append] at hcs
    have ht := iht fuel false a (by omega) hst.2.2.1 hord.2.1 (fun k' h => hkeys k' (.inr (.inl h))) (fun c h => hcs c (.inl h))
    have hr := ihr fuel level hlev (by omega) hst.2.2.2 hord.2.2 (fun k' h => hkeys k' (.inr (.inr h))) (fun c h => hcs c (.inr h))
    have hk1 := hkeys k (.inl rfl)
    have hk2 := hkeys rest.first (.inr (.inr rest.first_mem))
    obtain ⟨e, es, hes, heo⟩ := rest.entries_cons
    rw [Kids.entries, hes]
    rw [hes] at hr
    unfold nodeBlocks
    simp only [Key.entry, heo, hk1, hk2, show ¬ level = 0 from by omega, ↓reduceIte, hr, ht, Res.bind_ok, Res.pure_eq,
      Kids.chunks, List.filter_append, List.map_append]
    split
    · rename_i hp
      have : t.chunks.filter (overlaps pos (nElems * dtSize) first last) = [] := by
        rw [List.filter_eq_nil_iff]
        intro c hc
        obtain ⟨hc1, hc2⟩ := hord.1 c hc
        have hc2 : first = 0 ∨ pos rest.first.offsets = 0 ∨ pos c.offsets + nElems * dtSize ≤ pos rest.first.offsets :=
          hc2.imp hw id
        simp only [pruned, Bool.or_eq_true, Bool.and_eq_true, decide_eq_true_eq] at hp
        simp only [overlaps, Bool.and_eq_true, decide_eq_true_eq]
        omega
      rw [this]
      rfl
    · rfl

end Verif.H5
