import Verif.Model.H5Filters
import Verif.Spec.Filters
/-!
Lemmas on the filters.
-/
namespace Verif.H5

/-! ### Shuffle -/

theorem getD_app (a b : Bytes) (x : UInt8) (k : Nat) (h : k < a.length) :
    (a ++ b).getD k x = a.getD k x := by
  rw [List.getD_eq_getElem?_getD, List.getElem?_append_left h, ← List.getD_eq_getElem?_getD]

theorem getD_app_right (a b : Bytes) (x : UInt8) (k : Nat) (h : a.length ≤ k) :
    (a ++ b).getD k x = b.getD (k - a.length) x := by
  rw [List.getD_eq_getElem?_getD, List.getElem?_append_right h, ← List.getD_eq_getElem?_getD]

theorem inner_length (val : Bytes) (n nelems i m : Nat) (tmp : Bytes) :
    ((List.range m).foldl (fun tmp j =>
      tmp.set (j * n + i) (val.getD (i * nelems + j) 0)) tmp).length = tmp.length := by
  induction m with
  | zero => rfl
  | succ m ih =>
    rw [List.range_succ, List.foldl_append]
    simp only [List.foldl_cons, List.foldl_nil, List.length_set, ih]

theorem inner_get (val : Bytes) (n nelems i m : Nat) (tmp : Bytes) (hi : i < n) (k : Nat)
    (hk : k < tmp.length) :
    ((List.range m).foldl (fun tmp j =>
      tmp.set (j * n + i) (val.getD (i * nelems + j) 0)) tmp).getD k 0 =
      if k % n = i ∧ k / n < m then val.getD (i * nelems + k / n) 0 else tmp.getD k 0 := by
  induction m with
  | zero => simp
  | succ m ih =>
    rw [List.range_succ, List.foldl_append]
    simp only [List.foldl_cons, List.foldl_nil]
    have hlen := inner_length val n nelems i m tmp
    generalize hR : (List.range m).foldl (fun tmp j =>
      tmp.set (j * n + i) (val.getD (i * nelems + j) 0)) tmp = R at *
    have hn : 0 < n := by omega
    by_cases hp : m * n + i = k
    · have h1 : k % n = i := by
        rw [← hp, Nat.add_comm, Nat.add_mul_mod_self_right, Nat.mod_eq_of_lt hi]
      have h2 : k / n = m := by
        rw [← hp, Nat.add_comm, Nat.add_mul_div_right _ _ hn, Nat.div_eq_of_lt hi, Nat.zero_add]
      rw [if_pos ⟨h1, by omega⟩, h2, hp, List.getD_eq_getElem?_getD, List.getElem?_set]
      simp [hlen, hk]
    · rw [List.getD_eq_getElem?_getD, List.getElem?_set_ne hp, ← List.getD_eq_getElem?_getD, ih]
      by_cases hc : k % n = i ∧ k / n < m
      · rw [if_pos hc, if_pos ⟨hc.1, by omega⟩]
      · rw [if_neg hc, if_neg]
        rintro ⟨h1, h2⟩
        apply hp
        have h3 : k / n = m := by
          rcases Nat.lt_or_ge (k / n) m with h | h
          · exact absurd ⟨h1, h⟩ hc
          · omega
        have := Nat.div_add_mod k n
        rw [h3, h1, Nat.mul_comm] at this
        exact this

theorem outer_get (val : Bytes) (n nelems m : Nat) (tmp : Bytes) (hm : m ≤ n) (k : Nat)
    (hk : k < tmp.length) :
    ((List.range m).foldl (fun tmp i =>
      (List.range nelems).foldl (fun tmp j =>
        tmp.set (j * n + i) (val.getD (i * nelems + j) 0)) tmp) tmp).getD k 0 =
      (if k % n < m ∧ k / n < nelems then val.getD (k % n * nelems + k / n) 0
        else tmp.getD k 0) ∧
    ((List.range m).foldl (fun tmp i =>
      (List.range nelems).foldl (fun tmp j =>
        tmp.set (j * n + i) (val.getD (i * nelems + j) 0)) tmp) tmp).length = tmp.length := by
  induction m with
  | zero => simp
  | succ m ih =>
    obtain ⟨ih1, ih2⟩ := ih (by omega)
    rw [List.range_succ, List.foldl_append]
    simp only [List.foldl_cons, List.foldl_nil]
    generalize hR : (List.range m).foldl (fun tmp i =>
      (List.range nelems).foldl (fun tmp j =>
        tmp.set (j * n + i) (val.getD (i * nelems + j) 0)) tmp) tmp = R at *
    refine ⟨?_, by rw [inner_length, ih2]⟩
    rw [inner_get _ _ _ _ _ _ (by omega) k (by omega), ih1]
    by_cases h1 : k % n = m ∧ k / n < nelems
    · rw [if_pos h1, if_pos ⟨by omega, h1.2⟩, h1.1]
    · rw [if_neg h1]
      by_cases h2 : k % n < m ∧ k / n < nelems
      · rw [if_pos h2, if_pos ⟨by omega, h2.2⟩]
      · rw [if_neg h2, if_neg]
        rintro ⟨h3, h4⟩
        have : k % n = m ∨ k % n < m := by omega
        rcases this with h | h
        · exact h1 ⟨h, h4⟩
        · exact h2 ⟨h, h4⟩

theorem unshuffleLoop_get (val : Bytes) (n nelems : Nat) (tmp : Bytes) (hn : 0 < n) (k : Nat)
    (hk : k < tmp.length) :
    (unshuffleLoop val n nelems tmp).getD k 0 =
      if k / n < nelems then val.getD (k % n * nelems + k / n) 0 else tmp.getD k 0 := by
  unfold unshuffleLoop
  rw [(outer_get val n nelems n tmp (Nat.le_refl _) k hk).1]
  simp only [Nat.mod_lt k hn, true_and]

theorem unshuffleLoop_length (val : Bytes) (n nelems : Nat) (tmp : Bytes) :
    (unshuffleLoop val n nelems tmp).length = tmp.length := by
  unfold unshuffleLoop
  generalize List.range n = l
  induction l generalizing tmp with
  | nil => rfl
  | cons i l ih => rw [List.foldl_cons, ih, inner_length]

theorem flatMap_rows_get (f : Nat → Bytes) (m : Nat) (hf : ∀ i, (f i).length = m) (n s : Nat)
    (rest : Bytes) (i j : Nat) (hi : i < n) (hj : j < m) :
    ((List.range' s n).flatMap f ++ rest).getD (i * m + j) 0 = (f (s + i)).getD j 0 := by
  induction n generalizing s i with
  | zero => omega
  | succ n ih =>
    rw [List.range'_succ, List.flatMap_cons, List.append_assoc]
    cases i with
    | zero =>
      rw [Nat.zero_mul, Nat.zero_add, getD_app _ _ _ _ (by rw [hf]; exact hj), Nat.add_zero]
    | succ i =>
      rw [getD_app_right _ _ _ _ (by rw [hf, Nat.succ_mul]; omega), hf]
      have e : (i + 1) * m + j - m = i * m + j := by rw [Nat.succ_mul]; omega
      rw [e, ih (s + 1) i (by omega)]
      congr 2
      omega

theorem h5Shuffle_length (n : Nat) (data : Bytes) : (h5Shuffle n data).length = data.length := by
  unfold h5Shuffle
  rw [List.length_append, List.length_flatMap, List.length_drop]
  have : ((List.range n).map fun i =>
      ((List.range (data.length / n)).map fun j => data.getD (j * n + i) 0).length) =
      List.replicate n (data.length / n) := by
    rw [List.eq_replicate_iff]
    constructor
    · simp
    · intro b hb
      simp only [List.mem_map, List.length_map, List.length_range] at hb
      obtain ⟨_, _, h⟩ := hb
      exact h.symm
  rw [this, List.sum_replicate_nat]
  have h2 := Nat.div_mul_le_self data.length n
  rw [Nat.mul_comm n]
  omega

theorem h5Shuffle_get (n : Nat) (data : Bytes) (i j : Nat) (hi : i < n) (hj : j < data.length / n) :
    (h5Shuffle n data).getD (i * (data.length / n) + j) 0 = data.getD (j * n + i) 0 := by
  unfold h5Shuffle
  rw [List.range_eq_range' (n := n), flatMap_rows_get _ (data.length / n) (by simp) n 0 _ i j hi hj]
  simp only [Nat.zero_add]
  rw [List.getD_eq_getElem?_getD, List.getElem?_map, List.getElem?_range hj]
  rfl

theorem ext_getD (a b : Bytes) (h : a.length = b.length)
    (h2 : ∀ k < a.length, a.getD k 0 = b.getD k 0) : a = b := by
  apply List.ext_getElem h
  intro k h1 h3
  have := h2 k h1
  rw [List.getD_eq_getElem?_getD, List.getD_eq_getElem?_getD, List.getElem?_eq_getElem h1,
    List.getElem?_eq_getElem h3] at this
  exact this

/-- Unshuffling restores the whole elements; bytes behind them become zero. -/
theorem unshuffle_h5Shuffle (n : Nat) (hn : 1 < n) (data : Bytes) :
    unshuffle (h5Shuffle n data) n =
      .ok (data.take (data.length / n * n) ++ List.replicate (data.length % n) 0) := by
  unfold unshuffle
  rw [if_neg (by omega), if_neg (by omega)]
  congr 1
  have hdm : data.length / n * n + data.length % n = data.length := by
    have := Nat.div_add_mod data.length n
    rw [Nat.mul_comm] at this
    exact this
  have hle : data.length / n * n ≤ data.length := by omega
  apply ext_getD
  · rw [unshuffleLoop_length, List.length_replicate, h5Shuffle_length, List.length_append,
      List.length_take, List.length_replicate]
    omega
  · intro k hk
    rw [unshuffleLoop_length, List.length_replicate, h5Shuffle_length] at hk
    rw [unshuffleLoop_get _ _ _ _ (by omega) k
      (by rw [List.length_replicate, h5Shuffle_length]; exact hk), h5Shuffle_length]
    by_cases h : k / n < data.length / n
    · rw [if_pos h, h5Shuffle_get n data _ _ (Nat.mod_lt _ (by omega)) h]
      have e : k / n * n + k % n = k := by
        have := Nat.div_add_mod k n
        rw [Nat.mul_comm] at this
        exact this
      have hk2 : k < data.length / n * n := by
        rw [← Nat.div_lt_iff_lt_mul (by omega)]; exact h
      rw [e, getD_app _ _ _ _ (by rw [List.length_take]; omega)]
      rw [List.getD_eq_getElem?_getD, List.getD_eq_getElem?_getD, List.getElem?_take_of_lt hk2]
    · rw [if_neg h]
      have hk2 : data.length / n * n ≤ k := by
        rcases Nat.lt_or_ge k (data.length / n * n) with h' | h'
        · exact absurd ((Nat.div_lt_iff_lt_mul (by omega)).mpr h') h
        · exact h'
      rw [getD_app_right _ _ _ _ (by rw [List.length_take]; omega)]
      rw [List.getD_eq_getElem?_getD, List.getD_eq_getElem?_getD, List.getElem?_replicate,
        List.getElem?_replicate]
      split <;> split <;> rfl

/-! ### Fletcher -/

/-- The sums of a list of words modulo 65535. -/
def sums (ws : List Nat) : Nat × Nat := (ws.sum % 65535, sumOfSums 0 ws % 65535)

theorem sumOfSums_append (acc : Nat) (a b : List Nat) :
    sumOfSums acc (a ++ b) = sumOfSums acc a + sumOfSums (acc + a.sum) b := by
  induction a generalizing acc with
  | nil => simp [sumOfSums]
  | cons w a ih =>
    simp only [List.cons_append, sumOfSums, List.sum_cons, ih]
    rw [show acc + (w + a.sum) = acc + w + a.sum by omega]
    omega

theorem addToSums_sums (ws : List Nat) (w : Nat) : addToSums (sums ws) w = sums (ws ++ [w]) := by
  unfold addToSums sums
  simp only [sumOfSums_append, sumOfSums, List.sum_append, List.sum_cons, List.sum_nil,
    Nat.add_zero, Nat.zero_add, Prod.mk.injEq]
  constructor <;> omega

theorem beWords_append_even (a b : Bytes) (h : a.length % 2 = 0) :
    beWords (a ++ b) = beWords a ++ beWords b := by
  generalize hn : a.length = n
  induction n using Nat.strongRecOn generalizing a with
  | _ n ih =>
    match a, hn with
    | [], _ => rfl
    | [x], _ => simp at h
    | x :: y :: r, hn =>
      simp only [List.cons_append, beWords]
      rw [ih r.length (by simp at hn; omega) r (by simp at h; omega) rfl]

/-- The state after `d` has been read: the sums of the complete words, and the odd byte. -/
def FlInv (d : Bytes) (s : Nat × Nat) (part : UInt8) : Prop :=
  ∃ e o : Bytes, d = e ++ o ∧ e.length % 2 = 0 ∧ s = sums (beWords e) ∧
    (o = [] ∨ o = [part])

theorem fletcherLoop_inv (d b : Bytes) (s : Nat × Nat) (part : UInt8) (h : FlInv d s part) :
    FlInv (d ++ b) (fletcherLoop d.length b s part).1 (fletcherLoop d.length b s part).2 := by
  generalize hn : b.length = n
  induction n using Nat.strongRecOn generalizing d b s part with
  | _ n ih =>
    obtain ⟨e, o, hd, he, hs, ho⟩ := h
    rw [fletcherLoop.eq_def]
    match b, hn with
    | [], _ =>
      rw [List.append_nil]
      exact ⟨e, o, hd, he, hs, ho⟩
    | x :: rest, hn =>
      simp only
      by_cases hc : d.length % 2 = 1
      · rw [if_pos hc]
        have ho' : o = [part] := by
          rcases ho with h | h
          · subst h; rw [hd, List.append_nil] at hc; omega
          · exact h
        have := ih rest.length (by simp at hn; omega) (d ++ [x]) rest
          (addToSums s (part.toNat * 256 + x.toNat)) part
          ⟨e ++ [part, x], [], by rw [hd, ho']; simp, by simp; omega, by
            rw [hs, addToSums_sums, beWords_append_even _ _ he]; rfl, Or.inl rfl⟩ rfl
        rw [List.append_assoc, List.length_append] at this
        exact this
      · rw [if_neg hc]
        have ho' : o = [] := by
          rcases ho with h | h
          · exact h
          · subst h; rw [hd, List.length_append] at hc; simp at hc; omega
        rw [ho', List.append_nil] at hd
        subst hd
        match rest, hn with
        | [], _ => exact ⟨d, [x], rfl, he, hs, Or.inr rfl⟩
        | y :: rest, hn =>
          have := ih rest.length (by simp at hn; omega) (d ++ [x, y]) rest
            (addToSums s (x.toNat * 256 + y.toNat)) part
            ⟨d ++ [x, y], [], by simp, by simp; omega, by
              rw [hs, addToSums_sums, beWords_append_even _ _ he]; rfl, Or.inl rfl⟩ rfl
          rw [List.append_assoc, List.length_append] at this
          exact this

/-- The sum the reader computes. -/
def codeSum (d : Bytes) : Nat := (sums (beWords d)).2 * 65536 + (sums (beWords d)).1

theorem finish_sums (d : Bytes) (s : Nat × Nat) (part : UInt8) (h : FlInv d s part) :
    (if d.length % 2 = 1 then addToSums s (part.toNat * 256) else s) = sums (beWords d) := by
  obtain ⟨e, o, hd, he, hs, ho⟩ := h
  rcases ho with ho | ho
  · subst ho
    rw [List.append_nil] at hd
    subst hd
    rw [if_neg (by omega), hs]
  · subst ho
    rw [if_pos (by rw [hd, List.length_append]; simp; omega), hs, addToSums_sums, hd,
      beWords_append_even _ _ he]
    rfl

/-- The reader after `d` of the data `d ++ r` has been delivered. -/
def FlState (d r tail : Bytes) (fl : Fletcher) : Prop :=
  fl.src = r ++ tail ∧ fl.size = (d ++ r).length + 4 ∧ fl.count = d.length ∧
    FlInv d (fl.sum1, fl.sum2) fl.part ∧ fl.checksum = none

/-- One read before the end of the data. -/
theorem read_step (d r tail : Bytes) (fl : Fletcher) (h : FlState d r tail fl) (len give : Nat) :
    (min len (min give r.length) < r.length → ∃ fl', fl.read len give =
        .ok (r.take (min len (min give r.length)), fl') ∧
      FlState (d ++ r.take (min len (min give r.length))) (r.drop (min len (min give r.length)))
        tail fl') ∧
    (min len (min give r.length) = r.length → 4 ≤ tail.length →
      (codeSum (d ++ r) = leDec (tail.take 4) →
        ∃ fl', fl.read len give = .ok (r, fl') ∧ fl'.src = tail.drop 4) ∧
      (codeSum (d ++ r) ≠ leDec (tail.take 4) → fl.read len give = .err .checksum)) := by
  obtain ⟨h1, h2, h3, h4, h5⟩ := h
  rw [List.length_append] at h2
  unfold Fletcher.read
  have hthis : fl.src.take (min (if len + fl.count > fl.size - 4 then fl.size - 4 - fl.count else len)
      give) = r.take (min len (min give r.length)) := by
    rw [h1, h2, h3]
    by_cases hg : len + d.length > d.length + r.length + 4 - 4
    · rw [if_pos hg, List.take_append_of_le_length (by omega)]
      congr 1
      omega
    · rw [if_neg hg, List.take_append_of_le_length (by omega)]
      congr 1
      omega
  simp only [hthis]
  generalize hm : min len (min give r.length) = m at *
  have hml : (r.take m).length = m := by rw [List.length_take]; omega
  have hdrop : fl.src.drop m = r.drop m ++ tail := by
    rw [h1, List.drop_append_of_le_length (by omega)]
  have hinv := fletcherLoop_inv d (r.take m) (fl.sum1, fl.sum2) fl.part h4
  rw [h3, hml, hdrop]
  unfold Fletcher.finish Fletcher.stored
  simp only [h2, h5]
  constructor
  · intro hlt
    rw [if_neg (by omega)]
    refine ⟨_, rfl, rfl, ?_, ?_, hinv, rfl⟩
    · simp only [List.length_append, List.length_take, List.length_drop]; omega
    · simp only [List.length_append, List.length_take]; omega
  · intro heq h4t
    rw [if_pos (by omega)]
    have hr : r.take m = r := List.take_of_length_le (by omega)
    have hd : r.drop m = [] := List.drop_eq_nil_of_le (by omega)
    rw [hr] at hinv
    have hfin := finish_sums (d ++ r) _ _ hinv
    rw [List.length_append] at hfin
    rw [hr, hd, List.nil_append, if_pos h4t]
    rw [show d.length + r.length + 4 - 4 = d.length + r.length by omega]
    rw [hfin]
    simp only
    constructor
    · intro hc
      unfold codeSum at hc
      rw [if_pos hc]
      exact ⟨_, rfl, rfl⟩
    · intro hc
      unfold codeSum at hc
      rw [if_neg hc]

/-- Reads, one after the other, until the data is complete. -/
def drain (fl : Fletcher) : List (Nat × Nat) → Res Bytes
  | [] => .ok []
  | (len, give) :: reqs =>
    match fl.read len give with
    | .ok (b, fl') => if fl'.count = fl'.size - 4 then .ok b else (drain fl' reqs).map (b ++ ·)
    | .err e => .err e
    | .panic => .panic

theorem finish_count (fl fl' : Fletcher) (h : fl.finish = .ok fl') :
    fl'.count = fl.count ∧ fl'.size = fl.size := by
  unfold Fletcher.finish at h
  by_cases hc : fl.count = fl.size - 4
  · rw [if_pos hc] at h
    simp only at h
    generalize fl.stored = x at h
    generalize (if (fl.size - 4) % 2 = 1 then addToSums (fl.sum1, fl.sum2) (fl.part.toNat * 256)
      else (fl.sum1, fl.sum2)) = y at h
    cases x with
    | err e => cases h
    | panic => cases h
    | ok c =>
      simp only at h
      split at h
      · cases h; exact ⟨rfl, rfl⟩
      · cases h
  · rw [if_neg hc] at h
    cases h
    exact ⟨rfl, rfl⟩

theorem read_count (d r tail : Bytes) (fl : Fletcher) (h : FlState d r tail fl) (len give : Nat)
    (b : Bytes) (fl' : Fletcher) (hr : fl.read len give = .ok (b, fl')) :
    fl'.count = d.length + b.length ∧ fl'.size = d.length + r.length + 4 := by
  obtain ⟨h1, h2, h3, h4, h5⟩ := h
  unfold Fletcher.read at hr
  rw [List.length_append] at h2
  simp only at hr
  generalize fl.src.take (min (if len + fl.count > fl.size - 4 then fl.size - 4 - fl.count else len)
      give) = bb at hr
  split at hr
  · rename_i fl'' hfin
    simp only [Res.ok.injEq, Prod.mk.injEq] at hr
    obtain ⟨rfl, rfl⟩ := hr
    have := finish_count _ _ hfin
    simp only [h2, h3] at this
    exact this
  · cases hr
  · cases hr

theorem drain_eq (d r tail : Bytes) (fl : Fletcher) (h : FlState d r tail fl)
    (ht : 4 ≤ tail.length) (reqs : List (Nat × Nat)) (hpos : ∀ q ∈ reqs, 0 < q.1 ∧ 0 < q.2)
    (hne : reqs ≠ []) (hlen : r.length ≤ reqs.length) :
    drain fl reqs =
      if codeSum (d ++ r) = leDec (tail.take 4) then .ok r else .err .checksum := by
  induction reqs generalizing d r fl with
  | nil => exact absurd rfl hne
  | cons q reqs ih =>
    obtain ⟨len, give⟩ := q
    obtain ⟨hl, hg⟩ := hpos (len, give) (List.mem_cons_self)
    obtain ⟨hA, hB⟩ := read_step d r tail fl h len give
    rw [drain]
    by_cases hm : min len (min give r.length) = r.length
    · obtain ⟨hok, herr⟩ := hB hm ht
      by_cases hc : codeSum (d ++ r) = leDec (tail.take 4)
      · rw [if_pos hc]
        obtain ⟨fl', hr, _⟩ := hok hc
        have := read_count d r tail fl h len give r fl' hr
        rw [hr]
        simp only
        rw [if_pos (by omega)]
      · rw [if_neg hc, herr hc]
    · have hlt : min len (min give r.length) < r.length := by omega
      obtain ⟨fl', hr, hst⟩ := hA hlt
      have hcount := read_count d r tail fl h len give _ fl' hr
      generalize hmm : min len (min give r.length) = m at *
      have hml : (r.take m).length = m := by rw [List.length_take]; omega
      rw [hr]
      simp only
      rw [if_neg (by omega)]
      have hpos' : ∀ q ∈ reqs, 0 < q.1 ∧ 0 < q.2 := fun q hq => hpos q (List.mem_cons_of_mem _ hq)
      simp only [List.length_cons] at hlen
      have hne' : reqs ≠ [] := by
        intro e
        subst e
        simp only [List.length_nil] at hlen
        omega
      rw [ih _ _ fl' hst hpos' hne' (by rw [List.length_drop]; omega)]
      rw [List.append_assoc, List.take_append_drop]
      split
      · simp only [Res.map, List.take_append_drop]
      · rfl

/-- Whatever has been delivered is a prefix of the data. -/
theorem drain_prefix (d r tail : Bytes) (fl : Fletcher) (h : FlState d r tail fl)
    (ht : 4 ≤ tail.length) (reqs : List (Nat × Nat)) (b : Bytes) (hd : drain fl reqs = .ok b) :
    b <+: r := by
  induction reqs generalizing d r fl b with
  | nil =>
    simp only [drain, Res.ok.injEq] at hd
    subst hd
    exact List.nil_prefix
  | cons q reqs ih =>
    obtain ⟨len, give⟩ := q
    obtain ⟨hA, hB⟩ := read_step d r tail fl h len give
    rw [drain] at hd
    by_cases hm : min len (min give r.length) = r.length
    · obtain ⟨hok, herr⟩ := hB hm ht
      by_cases hc : codeSum (d ++ r) = leDec (tail.take 4)
      · obtain ⟨fl', hr, _⟩ := hok hc
        have := read_count d r tail fl h len give r fl' hr
        rw [hr] at hd
        simp only at hd
        rw [if_pos (by omega)] at hd
        cases hd
        exact List.prefix_rfl
      · rw [herr hc] at hd
        cases hd
    · have hlt : min len (min give r.length) < r.length := by omega
      obtain ⟨fl', hr, hst⟩ := hA hlt
      have hcount := read_count d r tail fl h len give _ fl' hr
      generalize hmm : min len (min give r.length) = m at *
      have hml : (r.take m).length = m := by rw [List.length_take]; omega
      rw [hr] at hd
      simp only at hd
      rw [if_neg (by omega)] at hd
      cases hx : drain fl' reqs with
      | ok b' =>
        rw [hx] at hd
        simp only [Res.map, Res.ok.injEq] at hd
        subst hd
        have := ih _ _ fl' hst b' hx
        obtain ⟨t, ht⟩ := this
        exact ⟨t, by rw [List.append_assoc, ht, List.take_append_drop]⟩
      | err e => rw [hx] at hd; cases hd
      | panic => rw [hx] at hd; cases hd

theorem codeSum_eq_h5 (d : Bytes)
    (h1 : (beWords d).sum = 0 ∨ (beWords d).sum % 65535 ≠ 0)
    (h2 : sumOfSums 0 (beWords d) = 0 ∨ sumOfSums 0 (beWords d) % 65535 ≠ 0) :
    codeSum d = h5Fletcher32 d := by
  unfold codeSum h5Fletcher32 sums
  have key : ∀ x, (x = 0 ∨ x % 65535 ≠ 0) → fold16 x = x % 65535 := by
    intro x hx
    unfold fold16
    split
    · subst x; rfl
    · omega
  rw [key _ h1, key _ h2]

/-! ### The reader of shuffled data -/

/-- A sequence of reads. -/
def Unsh.reads (r : Unsh) : List Nat → Res Bytes
  | [] => .ok []
  | len :: lens =>
    match r.read len with
    | .ok (b, r') => (r'.reads lens).map (b ++ ·)
    | .err e => .err e
    | .panic => .panic

theorem reads_some (lens : List Nat) (r : Unsh) (b : Bytes) (hb : r.b = some b)
    (hs : b.length = r.size) (hlens : lens.sum ≤ r.size) (hp : ∀ l ∈ lens, 0 < l) :
    r.reads lens = .ok (b.take lens.sum) := by
  induction lens generalizing r b with
  | nil => rfl
  | cons l lens ih =>
    simp only [List.sum_cons] at hlens ⊢
    have hl := hp l List.mem_cons_self
    rw [Unsh.reads]
    unfold Unsh.read
    rw [if_neg (by omega)]
    simp only [hb]
    rw [if_neg (by omega)]
    rw [ih _ (b.drop l) rfl (by simp [hs]) (by simp only; omega)
      (fun x hx => hp x (List.mem_cons_of_mem _ hx))]
    simp only [Res.map, List.take_add]

theorem reads_eq (lens : List Nat) (src rest : Bytes) (n : Nat) (u : Bytes)
    (hu : unshuffle src n = .ok u) (hul : u.length = src.length) (hlens : lens.sum ≤ src.length)
    (hp : ∀ l ∈ lens, 0 < l) :
    (Unsh.mk (src ++ rest) none src.length n).reads lens = .ok (u.take lens.sum) := by
  cases lens with
  | nil => rfl
  | cons l lens =>
    simp only [List.sum_cons] at hlens ⊢
    have hl := hp l List.mem_cons_self
    rw [Unsh.reads]
    unfold Unsh.read
    rw [if_neg (by simp only; omega)]
    simp only [List.take_left, hu]
    rw [if_neg (by omega)]
    simp only [Nat.sub_self, List.replicate_zero, List.append_nil]
    rw [reads_some lens _ (u.drop l) rfl (by simp [hul]) (by simp only; omega)
      (fun x hx => hp x (List.mem_cons_of_mem _ hx))]
    simp only [Res.map, List.take_add]

end Verif.H5
