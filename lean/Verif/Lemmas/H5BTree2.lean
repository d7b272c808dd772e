import Verif.Lemmas.H5FHeap
/-!
The reader on version 2 B-trees laid out as in `Spec/H5Dense`.
-/
namespace Verif.H5
open Fmt

/-- One step after the other. -/
inductive Steps {β σ : Type} (R : β → σ → σ → Prop) : List β → σ → σ → Prop
  | nil {s : σ} : Steps R [] s s
  | cons {x : β} {xs : List β} {s s1 s2 : σ} (h : R x s s1) (hs : Steps R xs s1 s2) :
      Steps R (x :: xs) s s2

theorem Steps.append {β σ : Type} {R : β → σ → σ → Prop} {xs ys : List β} {s s2 : σ}
    (h : Steps R (xs ++ ys) s s2) : ∃ s1, Steps R xs s s1 ∧ Steps R ys s1 s2 := by
  induction xs generalizing s with
  | nil => exact ⟨s, .nil, h⟩
  | cons x xs ih =>
    cases h with
    | cons h hs =>
      obtain ⟨s1, h1, h2⟩ := ih hs
      exact ⟨s1, .cons h h1, h2⟩

theorem Chain.steps {β γ σ : Type} {f : γ → σ → Res σ} {g : γ → β} {R : β → σ → σ → Prop} {xs : List γ}
    {s s2 : σ} (h : Chain f xs s s2) (hfg : ∀ x ∈ xs, ∀ s s1, f x s = .ok s1 → R (g x) s s1) :
    Steps R (xs.map g) s s2 := by
  induction h with
  | nil => exact .nil
  | cons h hs ih =>
    exact .cons (hfg _ (by simp) _ _ h) (ih fun x hx => hfg x (by simp [hx]))

section
variable {walk : Task → St → Res St} {file : Bytes} {d : Dense}

/-- A record is read and leads from one state to the other. -/
def Rec (walk : Task → St → Res St) (file : Bytes) (d : Dense) (ty : Nat) (r : Bytes) (st st' : St) : Prop :=
  Parses (readRecord walk file d ty st) r st'

theorem readRecords_ok {ty : Nat} {recs : List Bytes} {st st' : St}
    (h : Steps (Rec walk file d ty) recs st st') :
    Parses (readRecords walk file d ty recs.length st) recs.flatten st' := by
  induction h with
  | nil => exact PL.pure _
  | cons h hs ih =>
    simp only [List.length_cons, List.flatten_cons, readRecords]
    exact PL.bind h ih

theorem bytesFor_one {n : Nat} (h : bytesFor n = 1) : n < 256 := by
  unfold bytesFor at h
  have h1 : Nat.log2 n < 8 := by omega
  by_cases h0 : n = 0
  · omega
  · have := (Nat.log2_lt h0).mp h1
    omega

theorem flatten_length {recs : List Bytes} {rs : Nat} (h : ∀ r ∈ recs, r.length = rs) :
    recs.flatten.length = recs.length * rs := by
  induction recs with
  | nil => simp
  | cons r recs ih =>
    rw [List.flatten_cons, List.length_append, ih fun r hr => h r (by simp [hr]), h r (by simp),
      List.length_cons, Nat.succ_mul]
    omega

theorem readLeafNode_ok (hf : file.length < 2 ^ 63) {ty rs addr : Nat} {recs : List Bytes} {st st' : St}
    (hty : ty < 256) (hr : ∀ r ∈ recs, r.length = rs) (hn : recs.length < 256)
    (hlen : recs.length * rs + 10 < 2 ^ 32)
    (hat : At file addr (block (leafNode ty recs))) (h : Steps (Rec walk file d ty) recs st st') :
    readLeafNode walk file d rs addr recs.length st = .ok st' := by
  have hl : (leafNode ty recs).length = 6 + recs.length * rs := by
    simp only [leafNode, num_eq, List.length_append, leEnc_length, List.length_cons, List.length_nil,
      flatten_length hr]
  have hw : wrap64 (6 + wrap64 (i64 recs.length * rs)) = ((6 + recs.length * rs : Nat) : Int) := by
    rw [i64_of_lt (by omega)]
    have e : ((recs.length : Nat) : Int) * (rs : Int) = ((recs.length * rs : Nat) : Int) := by
      push_cast; rfl
    rw [e]
    unfold wrap64
    omega
  have hi : (i64 recs.length).toNat = recs.length := by
    rw [i64_of_lt (by omega)]; rfl
  have hp : Parses (do
      checkMagic 4 btlfSig
      let _ ← read8
      let ty ← read8
      readRecords walk file d ty recs.length st) (leafNode ty recs) st' := by
    simp only [leafNode, num_eq, List.append_assoc]
    refine PL.bind (Parses.magic rfl) ?_
    refine PL.bind (Parses.read8 (by omega)) ?_
    refine PL.bind (Parses.read8 hty) ?_
    exact readRecords_ok h
  unfold readLeafNode
  simp only [hw, hi]
  rw [seekRun_all hat.block hl hf (by omega) hp]
  simp only [Res.bind_ok, Int.toNat_natCast]
  rw [checksum_at hat hl hf (by omega)]
  rfl

theorem caps_le (ns rs : Nat) (hrs : 0 < rs) (d : Nat) : (caps ns rs d).1 ≤ (ns - 10) / rs := by
  cases d with
  | zero => exact Nat.le_refl _
  | succ d =>
    simp only [caps]
    refine Nat.le_trans (Nat.div_le_div_right (c := _) (Nat.sub_le (ns - 10) _)) ?_
    exact Nat.div_le_div_left (Nat.le_add_right ..) hrs

theorem forest_count {ns rs ty : Nat} {depth : Nat} {kids : List (Nat × Nat × Nat)} {recs : List Bytes}
    (h : Forest file ns rs ty depth kids recs) : ∀ k ∈ kids, k.2.1 ≤ (caps ns rs depth).1 := by
  induction h with
  | nil => simp
  | leaf hr hn hat h ih =>
    intro k hk
    rcases List.mem_cons.mp hk with rfl | hk
    · exact hn
    · exact ih k hk
  | node hr hn h0 hk ha hat hb h ihb ih =>
    intro k hk'
    rcases List.mem_cons.mp hk' with rfl | hk'
    · exact hn
    · exact ih k hk'

/-- The state after reading the nodes. -/
def Node (walk : Task → St → Res St) (file : Bytes) (d : Dense) (ns rs depth : Nat) (k : Nat × Nat × Nat)
    (st st' : St) : Prop :=
  readNode walk file d ns rs depth k.1 k.2.1 st = .ok st'

theorem childLoop_ok {ns rs depth : Nat} {kids : List (Nat × Nat × Nat)} {st st' : St}
    (hrec : recWidth ns rs = 1) (htot : 0 < depth → totWidth ns rs depth = 2)
    (hcap : (ns - 10) / rs < 256) (hrs : 0 < rs) (hfew : fewRecords ns rs = true)
    (ha : ∀ k ∈ kids, k.1 < 2 ^ 64) (hc : ∀ k ∈ kids, k.2.1 ≤ (caps ns rs depth).1)
    (h : Steps (Node walk file d ns rs depth) kids st st') :
    Parses (childLoop (readNode walk file d ns rs depth) (fewRecords ns rs) (decide (0 < depth)) kids.length st)
      (kids.flatMap (childPtr ns rs depth)) st' := by
  have hle := caps_le ns rs hrs depth
  induction h with
  | nil => exact PL.pure _
  | @cons k kids s s1 s2 h hs ih =>
    have hk1 := ha k (by simp)
    have hk2 := hc k (by simp)
    simp only [List.length_cons, List.flatMap_cons, childLoop, childPtr, hrec, num_eq, List.append_assoc]
    refine PL.bind (Parses.read64 hk1) ?_
    rw [hfew]
    refine PL.skip (P.assert_ok _ rfl) ?_
    refine PL.bind (Parses.read8 (by omega)) ?_
    refine PL.skip (fun s => (Parses.lift h).apply s.pos s.rem) ?_
    rw [hfew] at ih
    have ih' := ih (fun k hk => ha k (by simp [hk])) (fun k hk => hc k (by simp [hk]))
    by_cases h0 : depth = 0
    · subst h0
      simp only [↓reduceIte, List.nil_append]
      exact PL.skip (fun s => rfl) ih'
    · rw [if_neg h0, htot (by omega)]
      refine PL.bind (a := ()) ?_ ih'
      unfold readTotal
      rw [if_pos (by simp; omega)]
      refine PL.map (Parses.read16' (leEnc_length ..)) ?_
      intro s
      rfl

theorem childPtrs_length {ns rs depth : Nat} (hrec : recWidth ns rs = 1)
    (htot : 0 < depth → totWidth ns rs depth = 2) (kids : List (Nat × Nat × Nat)) :
    (kids.flatMap (childPtr ns rs depth)).length =
      kids.length * (9 + if decide (0 < depth) then 2 else 0) := by
  induction kids with
  | nil => simp
  | cons k kids ih =>
    rw [List.flatMap_cons, List.length_append, ih, List.length_cons, Nat.succ_mul]
    have : (childPtr ns rs depth k).length = 9 + if decide (0 < depth) then 2 else 0 := by
      by_cases h0 : depth = 0
      · subst h0
        simp [childPtr, hrec, num_eq]
      · simp [childPtr, hrec, num_eq, h0, htot (by omega : 0 < depth), Nat.pos_of_ne_zero h0]
    omega

theorem caps_succ {ns rs depth : Nat} (hrec : recWidth ns rs = 1)
    (htot : 0 < depth → totWidth ns rs depth = 2) :
    (caps ns rs (depth + 1)).1 =
      (ns - 10 - (9 + if decide (0 < depth) then 2 else 0)) /
        (rs + (9 + if decide (0 < depth) then 2 else 0)) := by
  have : (8 + recWidth ns rs + if depth = 0 then 0 else bytesFor (caps ns rs depth).2) =
      (9 + if decide (0 < depth) then 2 else 0) := by
    by_cases h0 : depth = 0
    · subst h0; simp [hrec]
    · have := htot (by omega)
      unfold totWidth at this
      simp [hrec, h0, this, Nat.pos_of_ne_zero h0]
  simp only [caps, this]

theorem forest_ok (hf : file.length < 2 ^ 63) {ns rs ty : Nat} (hns : ns < 2 ^ 32) (hrs : 0 < rs)
    (hty : ty < 256) (hrec : recWidth ns rs = 1) {depth : Nat} {kids : List (Nat × Nat × Nat)}
    {recs : List Bytes} (h : Forest file ns rs ty depth kids recs)
    (htot : ∀ x, 0 < x → x < depth → totWidth ns rs x = 2) (st st' : St)
    (hs : Steps (Rec walk file d ty) recs st st') : Steps (Node walk file d ns rs depth) kids st st' := by
  have hcap : (ns - 10) / rs < 256 := bytesFor_one hrec
  induction h generalizing st st' with
  | nil => cases hs; exact .nil
  | @leaf addr recs rest kids hr hn hat h ih =>
    obtain ⟨s1, h1, h2⟩ := hs.append
    refine .cons ?_ (ih htot _ _ h2)
    have hm : recs.length * rs ≤ ns - 10 := by
      refine Nat.le_trans (Nat.mul_le_mul_right rs hn) ?_
      exact Nat.div_mul_le_self ..
    have hlt : recs.length < 256 := Nat.lt_of_le_of_lt hn hcap
    unfold Node readNode
    exact readLeafNode_ok hf hty hr hlt (by omega) hat h1
  | @node depth addr own below rest kids' kids hr hn h0 hk ha hat hb h ihb ih =>
    obtain ⟨s2, h12, h3⟩ := hs.append
    obtain ⟨s1, h1, h2⟩ := h12.append
    refine .cons ?_ (ih htot _ _ h3)
    have htot' : 0 < depth → totWidth ns rs depth = 2 := fun h => htot depth h (by omega)
    have hkids := ihb (fun x hx hx' => htot x hx (by omega)) s1 s2 h2
    have hcs := caps_succ hrec htot'
    have hcount := forest_count hb
    have hlen := childPtrs_length hrec htot' kids'
    have hle := Nat.le_trans hn (caps_le ns rs hrs (depth + 1))
    rw [hcs] at hn
    have hp9 : 9 ≤ (9 + if decide (0 < depth) then 2 else 0) := by omega
    have hp11 : (9 + if decide (0 < depth) then 2 else 0) ≤ 11 := by split <;> omega
    unfold Node
    simp only [readNode]
    generalize (9 + if decide (0 < depth) then 2 else 0) = ptr at *
    have hpos : 0 < own.length := List.length_pos_iff.mpr h0
    have hm : own.length * (rs + ptr) ≤ ns - 10 - ptr :=
      Nat.le_trans (Nat.mul_le_mul_right _ hn) (Nat.div_mul_le_self ..)
    rw [Nat.mul_add] at hm
    have hp1 : rs ≤ own.length * rs := Nat.le_mul_of_pos_left _ hpos
    have hp2 : ptr ≤ own.length * ptr := Nat.le_mul_of_pos_left _ hpos
    have hfew : fewRecords ns rs = true := by
      unfold fewRecords
      rw [decide_eq_true_eq, show (ns + (2 ^ 32 - 26)) % 2 ^ 32 = ns - 26 by omega]
      refine Nat.lt_of_le_of_lt (Nat.le_trans (Nat.div_le_div_right (by omega : ns - 26 ≤ ns - 10)) ?_) hcap
      exact Nat.div_le_div_left (by omega) hrs
    have hl : (innerNode ns rs ty depth own kids').length = 6 + own.length * rs + (own.length + 1) * ptr := by
      simp only [innerNode, num_eq, List.length_append, leEnc_length, List.length_cons, List.length_nil,
        flatten_length hr, hlen, hk]
    have hp : Parses (do
        checkMagic 4 btinSig
        let v ← read8
        checkVal 0 v
        let ty ← read8
        let st ← readRecords walk file d ty own.length st
        childLoop (readNode walk file d ns rs depth) (fewRecords ns rs) (decide (0 < depth))
          (own.length + 1) st) (innerNode ns rs ty depth own kids') s2 := by
      simp only [innerNode, num_eq, List.append_assoc]
      refine PL.bind (Parses.magic rfl) ?_
      refine PL.bind (Parses.read8 (by omega)) ?_
      refine PL.skip (checkVal_ok rfl) ?_
      refine PL.bind (Parses.read8 hty) ?_
      refine PL.bind (readRecords_ok h1) ?_
      rw [← hk]
      exact childLoop_ok hrec htot' hcap hrs hfew ha hcount hkids
    rw [seekRun_all hat.block hl hf (by omega) hp]
    simp only [Res.bind_ok]
    rw [checksum_at hat hl hf ?_]
    · rfl
    · rw [hl, Nat.add_mul]
      omega

theorem forest_leaf {ns rs ty root n t : Nat} {recs : List Bytes}
    (h : Forest file ns rs ty 0 [(root, n, t)] recs) : n = recs.length := by
  generalize hk : [(root, n, t)] = kids at h
  cases h with
  | nil => cases hk
  | leaf hr hn hat h =>
    cases hk
    cases h
    simp

theorem readBTree2_ok (hf : file.length < 2 ^ 63) {addr ty rs : Nat} {recs : List Bytes} (hty : ty < 256)
    (h : BTree2 file addr ty rs recs) (hrs' : rs < 65536) (st st' : St)
    (hs : Steps (Rec walk file d ty) recs st st') : readBTree2 walk file d addr st = .ok st' := by
  obtain ⟨ns, depth, split, merge, root, n, h1, h2, h3, h4, h5, h6, h7, h8, hat, hfo⟩ := h
  have hcap : (ns - 10) / rs < 256 := bytesFor_one h7
  have hn := forest_count hfo _ (List.mem_singleton.mpr rfl)
  have hn' : n < 256 := by
    have := caps_le ns rs h2 depth
    simp only at hn
    omega
  have hlen : (bthd ty ns rs depth split merge root n recs.length).length = 34 := by
    simp only [bthd, num_eq, List.length_append, leEnc_length, List.length_cons, List.length_nil]
  have hst := forest_ok (walk := walk) (d := d) hf h1 h2 hty h7 hfo h8 st st' hs
  have hp : Parses (do
      checkMagic 4 bthdSig
      let v ← read8
      checkVal 0 v
      let _ ← read8
      let nodeSize ← read32
      let recordSize ← read16
      let depth ← read16
      let _ ← read8
      let _ ← read8
      let root ← read64
      let rootRec ← read16
      let total ← read64
      pure (nodeSize, recordSize, depth, root, rootRec, total))
      (bthd ty ns rs depth split merge root n recs.length)
      (ns, rs, depth, root, n, leDec (leEnc 8 recs.length)) := by
    simp only [bthd, num_eq, List.append_assoc]
    refine PL.bind (Parses.magic rfl) ?_
    refine PL.bind (Parses.read8 (by omega)) ?_
    refine PL.skip (checkVal_ok rfl) ?_
    refine PL.bind (Parses.read8 hty) ?_
    refine PL.bind (Parses.read32 h1) ?_
    refine PL.bind (Parses.read16 hrs') ?_
    refine PL.bind (Parses.read16 h3) ?_
    refine PL.bind (Parses.read8 h4) ?_
    refine PL.bind (Parses.read8 h5) ?_
    refine PL.bind (Parses.read64 h6) ?_
    refine PL.bind (Parses.read16 (by omega)) ?_
    refine PL.map (Parses.read64' (leEnc_length ..)) ?_
    intro s
    rfl
  have hat2 : At file addr (bthd ty ns rs depth split merge root n recs.length ++
      (num 4 (Lookup3.hash (bthd ty ns rs depth split merge root n recs.length)).toNat).take 2) := by
    refine (At.app (c := (num 4 (Lookup3.hash
      (bthd ty ns rs depth split merge root n recs.length)).toNat).drop 2) ?_).1
    rw [List.append_assoc, List.take_append_drop]
    exact hat
  have hl2 : (bthd ty ns rs depth split merge root n recs.length ++
      (num 4 (Lookup3.hash (bthd ty ns rs depth split merge root n recs.length)).toNat).take 2).length
      = 36 := by
    rw [List.length_append, hlen]
    simp [num_eq]
  have e1 := seekRun_parses hat2 hl2 hf (by omega) hp
  rw [show ((36 : Nat) : Int) = 36 from rfl] at e1
  have e2 := checksum_at hat hlen hf (by omega)
  have hnode : readNode walk file d ns rs depth root n st = .ok st' := by
    cases hst with
    | cons h hs => cases hs; exact h
  have htotal : (if 0 < depth then n else leDec (leEnc 8 recs.length)) = n := by
    by_cases h0 : 0 < depth
    · rw [if_pos h0]
    · rw [if_neg h0]
      have : depth = 0 := by omega
      subst this
      rw [← forest_leaf hfo, leDec_leEnc_of_lt (by omega)]
  unfold readBTree2
  rw [e1]
  simp only [Res.bind_ok, e2, htotal]
  exact hnode

end

end Verif.H5
