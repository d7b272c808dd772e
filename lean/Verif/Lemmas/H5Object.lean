import Verif.Spec.H5Object
import Verif.Lemmas.H5Msg
import Verif.Lemmas.H5Super
/-!
Lemmas on object headers.
-/
namespace Verif.H5

theorem applyMsgs_append (w : Task → St → Res St) (flags : Nat) (xs ys : List Msg) (st : St) :
    applyMsgs w flags (xs ++ ys) st = applyMsgs w flags xs st >>= applyMsgs w flags ys := by
  induction xs generalizing st with
  | nil => rfl
  | cons x xs ih =>
    simp only [List.cons_append, applyMsgs]
    cases applyMsg w flags x st with
    | ok s => simp only [Res.bind_ok]; exact ih s
    | err e => rfl
    | panic => rfl

theorem Msg.enc_length (m : Msg) : m.enc.length = 4 + m.data.length := by
  simp only [Msg.enc, List.length_append, leEnc_length, List.length_cons, List.length_nil]

theorem Msg.enc_eq (m : Msg) (rest : Bytes) :
    m.enc ++ rest = UInt8.ofNat m.ty :: (leEnc 2 m.data.length ++ (0 :: (m.data ++ rest))) := by
  simp only [Msg.enc, List.append_assoc, List.cons_append, List.nil_append]

theorem readHead_msg (m : Msg) (rest : Bytes) (p C flags : Nat) (hm : m.Fits)
    (hC : p + 4 + m.data.length ≤ C) (hf : flags / 4 % 2 = 0) :
    readHead 2 flags C ⟨p, m.enc ++ rest⟩ =
      .ok (if m.data = [] then .next else .msg m.ty m.data.length,
        ⟨p + 4, m.data ++ rest⟩) := by
  have h8 : (UInt8.ofNat m.ty).toNat = m.ty := by
    have := hm.1; simp only [UInt8.toNat_ofNat']; omega
  rw [Msg.enc_eq]
  have hz : (m.data.length = 0 ∧ 1 < 2) ↔ m.data = [] := by
    simp [List.length_eq_zero_iff]
  have e1 : ¬ (p + 1 + 2 = C) := by omega
  have hfl : ¬ (flags / 4 % 2 = 1) := by omega
  have e2 : (decide (2 ≠ 1) || decide (m.data.length ≤ (m.data ++ rest).length)) = true := by simp
  have e3 : decide (m.data.length ≤ C - (p + 1 + 2 + 1)) = true := by
    simp only [decide_eq_true_eq]; omega
  have h21 : (2 = 1) = False := by simp
  have h12 : (1 < 2) = True := by simp
  by_cases hd : m.data = []
  · have hl : m.data.length = 0 := by simp [hd]
    have r16 := read16_app (p + 1) 0 (0 :: ([] ++ rest)) (by omega)
    simp only [readHead, P.bind_apply, read8_cons, hd, List.length_nil, r16, P.pure_apply, count, e1,
      hfl, h21, h12, and_false, false_and, ↓reduceIte, remLen_apply, and_self]
  · have hl : ¬ (m.data.length = 0) := by simpa using hd
    simp only [readHead, P.bind_apply, read8_cons, read16_app _ _ _ hm.2, P.pure_apply, count, e1, h8,
      hfl, hd, h21, h12, false_and, ↓reduceIte, remLen_apply, hl, e3,
      P.assert_true, e2]

theorem msgLoop_msgs (w : Task → St → Res St) (flags C : Nat) (hf : flags / 4 % 2 = 0)
    (ms : List Msg) (hm : ∀ m ∈ ms, m.Fits) (fuel p : Nat) (st : St)
    (hC : p + (ms.flatMap Msg.enc).length = C) (hfuel : (ms.flatMap Msg.enc).length < fuel) :
    msgLoop w 2 flags C fuel st ⟨p, ms.flatMap Msg.enc⟩ =
      match applyMsgs w flags ms st with
      | .ok st' => .ok (st', ⟨C, []⟩)
      | .err e => .err e
      | .panic => .panic := by
  induction ms generalizing fuel p st with
  | nil =>
    cases fuel with
    | zero => omega
    | succ fuel =>
      simp only [List.flatMap_nil, List.length_nil, Nat.add_zero] at hC
      subst hC
      rfl
  | cons m ms ih =>
    have hmf := hm m (by simp)
    rw [List.flatMap_cons, List.length_append, Msg.enc_length] at hC hfuel
    cases fuel with
    | zero => omega
    | succ fuel =>
      have h3 : ¬ ((m.enc ++ ms.flatMap Msg.enc).length < 3) := by
        rw [List.length_append, Msg.enc_length]; omega
      rw [List.flatMap_cons]
      simp only [msgLoop, P.bind_apply, remLen_apply, h3, ↓reduceIte,
        readHead_msg m _ p C flags hmf (by omega) hf]
      by_cases hd : m.data = []
      · have := ih (fun m h => hm m (by simp [h])) fuel (p + 4) st
          (by rw [hd, List.length_nil] at hC; omega) (by omega)
        simp only [hd, ↓reduceIte, List.nil_append, this, applyMsgs, applyMsg, Res.bind_ok]
      · simp only [hd, ↓reduceIte, msgSub, or_true, applyMsgs, applyMsg, List.take_left,
          List.drop_left, P.bind_apply]
        cases handle w 2 flags m.ty m.data.length st ⟨0, m.data⟩ with
        | err e => rfl
        | panic => rfl
        | ok x =>
          obtain ⟨st', t⟩ := x
          simp only
          by_cases hz : t.rem.all (· == 0) = true
          · have := ih (fun m h => hm m (by simp [h])) fuel (p + 4 + m.data.length) st'
              (by omega) (by omega)
            simp only [hz, ↓reduceIte, Res.bind_ok, this]
          · simp only [hz, Bool.false_eq_true, ↓reduceIte]
            rfl

/-- The padding is nothing, or a message of type 0. -/
theorem nilPad_eq (n : Nat) :
    ∃ pad : List Msg, nilPad n = pad.flatMap Msg.enc ∧ (∀ m ∈ pad, m.Fits) ∧
      (n + (nilPad n).length) % 8 = 0 ∧ (nilPad n).length < 12 ∧
      ∀ w flags st, applyMsgs w flags pad st = .ok st := by
  by_cases h : n % 8 = 0
  · exact ⟨[], by simp [nilPad, h], by simp, by simp [nilPad, h], by simp [nilPad, h], fun _ _ _ => rfl⟩
  · obtain ⟨k, hk, hk1, hk2⟩ : ∃ k, nilPad n = Msg.enc ⟨0, List.replicate k 0⟩ ∧
        (n + (4 + k)) % 8 = 0 ∧ k < 8 := by
      refine ⟨(if 8 - n % 8 < 4 then 8 - n % 8 + 8 else 8 - n % 8) - 4, ?_, ?_, ?_⟩
      · simp [nilPad, h, Msg.enc]
      · split <;> omega
      · split <;> omega
    refine ⟨[⟨0, List.replicate k 0⟩], by simp [hk], ?_, ?_, ?_, ?_⟩
    · intro m hm
      simp only [List.mem_singleton] at hm
      subst hm
      exact ⟨(by decide : 0 < 256), by simp; omega⟩
    · rw [hk, Msg.enc_length]; simpa using hk1
    · rw [hk, Msg.enc_length]; simp; omega
    · intro w flags st
      simp only [applyMsgs, applyMsg]
      split
      · rfl
      · simp only [handle, true_or, ↓reduceIte, skip, List.length_replicate, P.bind_apply]
        rw [rdN_all _ _ _ (by simp)]
        rfl

theorem msgBlock_length_mod (ms : List Msg) : (msgBlock ms).length % 8 = 0 := by
  obtain ⟨_, _, _, h, _⟩ := nilPad_eq (ms.flatMap Msg.enc).length
  simpa [msgBlock] using h

/-- Reading the messages of a header. -/
theorem readCommon_block (w : Task → St → Res St) (ms : List Msg) (hm : ∀ m ∈ ms, m.Fits) (st : St)
    (flags p : Nat) (rest : Bytes) (hf : flags / 4 % 2 = 0) :
    readCommon w 2 flags (msgBlock ms).length st ⟨p, msgBlock ms ++ rest⟩ =
      match applyMsgs w flags ms st with
      | .ok st' => .ok (st', ⟨p + (msgBlock ms).length, rest⟩)
      | .err e => .err e
      | .panic => .panic := by
  obtain ⟨pad, hp, hpf, -, -, hpa⟩ := nilPad_eq (ms.flatMap Msg.enc).length
  have hb : msgBlock ms = (ms ++ pad).flatMap Msg.enc := by
    rw [List.flatMap_append, ← hp]; rfl
  have := msgLoop_msgs w flags (msgBlock ms).length hf (ms ++ pad)
    (fun m h => (List.mem_append.mp h).elim (hm m) (hpf m)) ((msgBlock ms).length + 1) 0 st
    (by rw [hb]; omega) (by rw [hb]; omega)
  rw [← hb] at this
  unfold readCommon sub
  simp only [List.take_left, List.drop_left, P.bind_apply, remLen_apply, this, applyMsgs_append]
  cases applyMsgs w flags ms st with
  | ok st' => simp only [Res.bind_ok, hpa, List.nil_append]
  | err e => rfl
  | panic => rfl

theorem At.split {file b : Bytes} {addr : Nat} (h : At file addr b) (hb : b ≠ []) :
    ∃ pre post, file = pre ++ b ++ post ∧ pre.length = addr := by
  obtain ⟨post, hp⟩ := h
  have hl : addr ≤ file.length := by
    by_cases hl : addr ≤ file.length
    · exact hl
    · rw [List.drop_eq_nil_of_le (by omega)] at hp
      simp at hp
      exact absurd hp.1 hb
  refine ⟨file.take addr, post, ?_, by simp [hl]⟩
  rw [List.append_assoc, hp, List.take_append_drop]

theorem At.of_split {file pre b post : Bytes} (h : file = pre ++ b ++ post) :
    At file pre.length b := by
  subst h
  exact ⟨post, by rw [List.append_assoc, List.drop_left]⟩

theorem seekRun_block {α : Type} (pre b post : Bytes) (p : P α) (n : Nat) (hn : b.length = n)
    (hf : (pre ++ b ++ post).length < 2 ^ 63) (hs : 0 < n) :
    seekRun (pre ++ b ++ post) pre.length (n : Int) p = (p ⟨0, b⟩).map (·.1) := by
  subst hn
  unfold seekRun
  rw [newSeek_block _ _ _ hf (by simp only [List.length_append]; omega) hs]
  rw [List.append_assoc, List.drop_left, List.take_left]

theorem headerBody_length (ms : List Msg) : (headerBody ms).length = 10 + (msgBlock ms).length := by
  simp only [headerBody, List.length_append, leEnc_length, ohdr, List.length_cons, List.length_nil]

/-- Reading an object header of the writer, wherever it is in the file. -/
theorem walk_header (file hdr : Bytes) (ms : List Msg) (addr fuel : Nat) (st : St)
    (hm : ∀ m ∈ ms, m.Fits) (hsize : (msgBlock ms).length < 2 ^ 32)
    (hobj : objectHeader ms = .ok hdr) (hat : At file addr hdr) (hlen : file.length < 2 ^ 63)
    (ha : 0 < addr) :
    walk file (fuel + 1) (.header addr) st =
      applyMsgs (walk file fuel) 2 ms { st with info := { st.info with addr := addr }, kids := [] } := by
  obtain ⟨sum, hsum, hh⟩ : ∃ sum, checksum (headerBody ms) = .ok sum ∧
      hdr = headerBody ms ++ leEnc 4 sum.toNat := by
    unfold objectHeader at hobj
    rw [Res.bind_eq_ok] at hobj
    obtain ⟨sum, h1, h2⟩ := hobj
    exact ⟨sum, h1, (Res.ok.inj h2).symm⟩
  obtain ⟨pre, post, hfile, hpre⟩ := hat.split (by
    intro e
    have := congrArg List.length (hh.symm.trans e)
    simp only [List.length_append, headerBody_length, List.length_nil] at this
    omega)
  subst hh hpre hfile
  have hlen' := hlen
  simp only [List.length_append, headerBody_length, leEnc_length] at hlen'
  -- the magic number
  have hmag : isMagic (pre ++ (headerBody ms ++ leEnc 4 sum.toNat) ++ post) ohdr pre.length =
      .ok true := by
    unfold isMagic
    rw [if_neg (by unfold invalidAddress; omega), if_neg]
    · congr 1
      rw [List.append_assoc, List.drop_left, headerBody]
      simp only [List.append_assoc]
      rw [List.take_left' (by rfl)]
      rfl
    · simp only [List.length_append, headerBody_length, leEnc_length]
      omega
  simp only [walk, hmag, readHeaderV2]
  -- the fixed part
  have e1 : pre ++ (headerBody ms ++ leEnc 4 sum.toNat) ++ post =
      pre ++ (ohdr ++ [2, 2]) ++ (leEnc 4 (msgBlock ms).length ++ msgBlock ms ++ leEnc 4 sum.toNat ++
        post) := by
    simp only [headerBody, List.append_assoc]
  have r1 := seekRun_block pre (ohdr ++ [2, 2]) (leEnc 4 (msgBlock ms).length ++ msgBlock ms ++
    leEnc 4 sum.toNat ++ post) (do
      checkMagic 4 ohdr
      let version ← read8
      checkVal 2 version
      let flags ← read8
      P.assert (decide (flags < 64)) .assertFail
      pure flags) 6 rfl (e1 ▸ hlen) (by decide)
  rw [← e1] at r1
  have e2 : pre ++ (headerBody ms ++ leEnc 4 sum.toNat) ++ post =
      (pre ++ (ohdr ++ [2, 2])) ++ leEnc 4 (msgBlock ms).length ++ (msgBlock ms ++ leEnc 4 sum.toNat ++
        post) := by
    simp only [headerBody, List.append_assoc]
  have r2 := seekRun_block (pre ++ (ohdr ++ [2, 2])) (leEnc 4 (msgBlock ms).length) (msgBlock ms ++
    leEnc 4 sum.toNat ++ post) (readEnc 4) 4 (by simp) (e2 ▸ hlen) (by decide)
  rw [← e2] at r2
  have hl2 : (pre ++ (ohdr ++ [2, 2])).length = pre.length + 6 := by simp [ohdr]
  rw [hl2] at r2
  have r1' : ((do
      checkMagic 4 ohdr
      let version ← read8
      checkVal 2 version
      let flags ← read8
      P.assert (decide (flags < 64)) .assertFail
      pure flags : P Nat) ⟨0, ohdr ++ [2, 2]⟩) = .ok (2, ⟨6, []⟩) := by decide +kernel
  rw [r1'] at r1
  have r2' : readEnc 4 ⟨0, leEnc 4 (msgBlock ms).length⟩ = .ok ((msgBlock ms).length, ⟨4, []⟩) := by
    have := read32_app 0 (msgBlock ms).length [] hsize
    rw [List.append_nil] at this
    simpa [readEnc] using this
  rw [r2'] at r2
  have r1'' : seekRun (pre ++ (headerBody ms ++ leEnc 4 sum.toNat) ++ post) pre.length 6 (do
      checkMagic 4 ohdr
      let version ← read8
      checkVal 2 version
      let flags ← read8
      P.assert (decide (flags < 64)) .assertFail
      pure flags) = .ok 2 := r1
  have r2'' : seekRun (pre ++ (headerBody ms ++ leEnc 4 sum.toNat) ++ post) (pre.length + 6) 4
      (readEnc 4) = .ok (msgBlock ms).length := r2
  -- the messages
  have r3 : ∀ st', seekRun (pre ++ (headerBody ms ++ leEnc 4 sum.toNat) ++ post) (pre.length + 6 + 4)
      (i64 (msgBlock ms).length)
      (readCommon (walk (pre ++ (headerBody ms ++ leEnc 4 sum.toNat) ++ post) fuel) 2 2
        (msgBlock ms).length st') =
      applyMsgs (walk (pre ++ (headerBody ms ++ leEnc 4 sum.toNat) ++ post) fuel) 2 ms st' := by
    intro st'
    have e3 : pre ++ (headerBody ms ++ leEnc 4 sum.toNat) ++ post =
        (pre ++ (ohdr ++ [2, 2]) ++ leEnc 4 (msgBlock ms).length) ++ (msgBlock ms) ++
          (leEnc 4 sum.toNat ++ post) := by
      simp only [headerBody, List.append_assoc]
    have hl3 : (pre ++ (ohdr ++ [2, 2]) ++ leEnc 4 (msgBlock ms).length).length =
        pre.length + 6 + 4 := by simp [ohdr]
    rw [i64_of_lt (by omega)]
    have key : ∀ s : S, (∃ rest, s.rem = msgBlock ms ++ rest) →
        ((readCommon (walk (pre ++ (headerBody ms ++ leEnc 4 sum.toNat) ++ post) fuel) 2 2
          (msgBlock ms).length st') s).map (·.1) =
        applyMsgs (walk (pre ++ (headerBody ms ++ leEnc 4 sum.toNat) ++ post) fuel) 2 ms st' := by
      rintro ⟨p, r⟩ ⟨rest, hr⟩
      simp only at hr
      subst hr
      rw [readCommon_block _ ms hm _ _ _ _ rfl]
      cases applyMsgs (walk (pre ++ (headerBody ms ++ leEnc 4 sum.toNat) ++ post) fuel) 2 ms st' <;> rfl
    unfold seekRun newSeek
    rw [i64_of_lt (by omega), wrap64_of (by omega) (by omega)]
    rw [if_pos (by simp only [List.length_append, headerBody_length, leEnc_length]; omega)]
    simp only
    rw [if_neg (by omega)]
    apply key
    simp only
    rw [show (pre ++ (headerBody ms ++ leEnc 4 sum.toNat) ++ post).drop (pre.length + 6 + 4) =
      msgBlock ms ++ (leEnc 4 sum.toNat ++ post) by
        rw [e3, ← hl3, List.append_assoc _ (msgBlock ms), List.drop_left]]
    split
    · refine ⟨leEnc 4 sum.toNat ++ post, ?_⟩
      rw [List.take_of_length_le]
      simp only [List.length_append, headerBody_length, leEnc_length]
      omega
    · refine ⟨[], ?_⟩
      simp
  have h01 : (0 = 1) = False := by simp
  simp only [r1'', Res.bind_ok, Nat.reduceDiv, Nat.reduceMod, h01,
    ↓reduceIte, Res.pure_eq, Nat.reducePow]
  have h4 : ((4 : Nat) : Int) = 4 := rfl
  simp only [h4, r2'', Res.bind_ok, r3]
  -- the checksum
  have hck : checkChecksum (pre ++ (headerBody ms ++ leEnc 4 sum.toNat) ++ post) pre.length
      (pre.length + 6 + 4 + (msgBlock ms).length - pre.length) = .ok () := by
    have := checkChecksum_block pre (headerBody ms) post sum.toNat sum.toNat_lt
      (by simpa only [List.append_assoc] using hlen)
    rw [hsum] at this
    simp only [↓reduceIte] at this
    rw [headerBody_length] at this
    rw [show pre ++ (headerBody ms ++ leEnc 4 sum.toNat) ++ post =
      pre ++ headerBody ms ++ leEnc 4 sum.toNat ++ post by simp only [List.append_assoc]]
    rw [← this]
    congr 1
    omega
  cases applyMsgs (walk (pre ++ (headerBody ms ++ leEnc 4 sum.toNat) ++ post) fuel) 2 ms
      { st with info := { st.info with addr := pre.length }, kids := [] } with
  | err e => rfl
  | panic => rfl
  | ok st' => simp only [Res.bind_ok, hck]

/-! ### More fuel gives the same result -/

/-- `w'` succeeds wherever `w` does, with the same result. -/
def Extends (w w' : Task → St → Res St) : Prop := ∀ t st x, w t st = .ok x → w' t st = .ok x

theorem dumpObject_none {w : Task → St → Res St} {st : St}
    (h : (hasHeap st.info.attr || hasHeap st.info.link) = false) : dumpObject w st = .ok st := by
  unfold dumpObject
  rw [h]
  rfl

theorem dumpObject_mono {w w' : Task → St → Res St} (h : Extends w w') (st x : St)
    (hx : dumpObject w st = .ok x) : dumpObject w' st = .ok x := by
  unfold dumpObject at hx ⊢
  split at hx
  · rename_i h1; rw [if_pos h1]; exact h _ _ _ hx
  · rename_i h1; rw [if_neg h1]; exact hx

theorem addObject_mono {w w' : Task → St → Res St} (h : Extends w w') (name : Bytes) (addr co : Nat)
    (g : Bool) (st x : St) (hx : addObject w name addr co g st = .ok x) :
    addObject w' name addr co g st = .ok x := by
  unfold addObject at hx ⊢
  split at hx
  · cases hx
  · cases hx
  · rename_i c hc
    rw [h _ _ _ hc]
    simp only
    split at hx
    · cases hx
    · cases hx
    · rename_i d hd
      rw [dumpObject_mono h _ _ hd]
      exact hx

theorem addLink_mono {w w' : Task → St → Res St} (h : Extends w w') (name : Bytes) (addr co : Nat)
    (st x : St) (hx : addLink w name addr co st = .ok x) : addLink w' name addr co st = .ok x := by
  unfold addLink at hx ⊢
  split at hx
  · cases hx
  · rename_i h1
    rw [if_neg h1]
    split at hx
    · rename_i h2; rw [if_pos h2]; exact hx
    · rename_i h2
      rw [if_neg h2]
      exact addObject_mono h _ _ _ _ _ _ hx

theorem P.lift_ok {α : Type} {r : Res α} {s : S} {x : α × S} (h : P.lift r s = .ok x) :
    r = .ok x.1 ∧ x.2 = s := by
  unfold P.lift at h
  cases r with
  | ok a => cases h; exact ⟨rfl, rfl⟩
  | err e => cases h
  | panic => cases h

theorem P.bind_ok {α β : Type} {p : P α} {f : α → P β} {s : S} {x : β × S} (h : (p >>= f) s = .ok x) :
    ∃ a t, p s = .ok (a, t) ∧ f a t = .ok x := by
  rw [P.bind_apply] at h
  cases hp : p s with
  | ok r => obtain ⟨a, t⟩ := r; rw [hp] at h; exact ⟨a, t, rfl, h⟩
  | err e => rw [hp] at h; cases h
  | panic => rw [hp] at h; cases h

theorem handle_mono {w w' : Task → St → Res St} (h : Extends w w') (version flags ty size : Nat)
    (st : St) (s : S) (x : St × S) (hx : handle w version flags ty size st s = .ok x) :
    handle w' version flags ty size st s = .ok x := by
  by_cases h6 : ty = 6
  · subst h6
    have e : ∀ w, handle w version flags 6 size st = (do
        let (name, addr, co) ← readLink
        P.lift (addLink w name addr co st)) := fun _ => rfl
    rw [e] at hx ⊢
    obtain ⟨⟨name, addr, co⟩, t, h1, h2⟩ := P.bind_ok hx
    obtain ⟨h3, h4⟩ := P.lift_ok h2
    rw [P.bind_apply, h1]
    simp only [P.lift, addLink_mono h _ _ _ _ _ h3, ← h4]
  · by_cases h16 : ty = 16
    · subst h16
      have e : ∀ w, handle w version flags 16 size st = (do
          let offset ← read64
          let csize ← read64
          P.lift (w (.cont offset csize version flags) st)) := fun _ => rfl
      rw [e] at hx ⊢
      obtain ⟨off, t, h1, h2⟩ := P.bind_ok hx
      obtain ⟨sz, u, h3, h4⟩ := P.bind_ok h2
      obtain ⟨h5, h6⟩ := P.lift_ok h4
      rw [P.bind_apply, h1]
      simp only [P.bind_apply, h3, P.lift, h _ _ _ h5, ← h6]
    · by_cases h17 : ty = 17
      · subst h17
        have e : ∀ w, handle w version flags 17 size st = (do
            let btree ← read64
            let heap ← read64
            P.lift (w (.symtab btree heap) { st with info := { st.info with isGroup := true } })) :=
          fun _ => rfl
        rw [e] at hx ⊢
        obtain ⟨off, t, h1, h2⟩ := P.bind_ok hx
        obtain ⟨sz, u, h3, h4⟩ := P.bind_ok h2
        obtain ⟨h5, h6⟩ := P.lift_ok h4
        rw [P.bind_apply, h1]
        simp only [P.bind_apply, h3, P.lift, h _ _ _ h5, ← h6]
      · have e : handle w version flags ty size st = handle w' version flags ty size st := by
          simp only [handle, h6, h16, h17, ↓reduceIte]
        rw [← e]
        exact hx

theorem msgLoop_mono {w w' : Task → St → Res St} (h : Extends w w') (version flags C fuel : Nat)
    (st : St) (s : S) (x : St × S) (hx : msgLoop w version flags C fuel st s = .ok x) :
    msgLoop w' version flags C fuel st s = .ok x := by
  induction fuel generalizing st s with
  | zero => cases hx
  | succ fuel ih =>
    unfold msgLoop at hx ⊢
    obtain ⟨r, t, h1, h2⟩ := P.bind_ok hx
    rw [P.bind_apply, h1]
    simp only
    split at h2
    · rename_i hr; rw [if_pos hr]; exact h2
    · rename_i hr
      rw [if_neg hr]
      obtain ⟨hd, u, h3, h4⟩ := P.bind_ok h2
      rw [P.bind_apply, h3]
      cases hd with
      | next => exact ih _ _ h4
      | stop => exact h4
      | msg ty size =>
        simp only at h4 ⊢
        obtain ⟨st', v, h5, h6⟩ := P.bind_ok h4
        have h7 : msgSub version size (handle w' version flags ty size st) u = .ok (st', v) := by
          unfold msgSub at h5 ⊢
          split at h5
          · rename_i hv
            rw [if_pos hv]
            split at h5
            · rename_i a b hab
              rw [handle_mono h _ _ _ _ _ _ _ hab]
              exact h5
            · cases h5
            · cases h5
          · rename_i hv
            rw [if_neg hv]
            unfold sub at h5 ⊢
            split at h5
            · rename_i a b hab
              rw [handle_mono h _ _ _ _ _ _ _ hab]
              exact h5
            · cases h5
            · cases h5
        rw [P.bind_apply, h7]
        exact ih _ _ h6

theorem readCommon_mono {w w' : Task → St → Res St} (h : Extends w w') (version flags C : Nat)
    (st : St) (s : S) (x : St × S) (hx : readCommon w version flags C st s = .ok x) :
    readCommon w' version flags C st s = .ok x := by
  unfold readCommon sub at hx ⊢
  split at hx
  · rename_i a b hab
    obtain ⟨r, t, h1, h2⟩ := P.bind_ok hab
    rw [P.bind_apply, h1]
    simp only
    rw [msgLoop_mono h _ _ _ _ _ _ _ h2]
    exact hx
  · cases hx
  · cases hx

theorem seekRun_mono {α : Type} {file : Bytes} {addr : Nat} {size : Int} {p q : P α}
    (h : ∀ s x, p s = .ok x → q s = .ok x) {a : α} (hx : seekRun file addr size p = .ok a) :
    seekRun file addr size q = .ok a := by
  unfold seekRun at hx ⊢
  split at hx
  · cases hx
  · cases hx
  · rename_i s hs
    cases hp : p s with
    | err e => rw [hp] at hx; cases hx
    | panic => rw [hp] at hx; cases hx
    | ok r => rw [hp] at hx; rw [h _ _ hp]; exact hx

theorem bind_mono {α β : Type} {p : Res α} {f g : α → Res β} {x : β}
    (h : ∀ a, f a = .ok x → g a = .ok x) (hx : (p >>= f) = .ok x) : (p >>= g) = .ok x := by
  rw [Res.bind_eq_ok] at hx ⊢
  obtain ⟨a, h1, h2⟩ := hx
  exact ⟨a, h1, h a h2⟩

theorem readHeaderV2_mono {w w' : Task → St → Res St} (h : Extends w w') (file : Bytes) (addr : Nat)
    (st x : St) (hx : readHeaderV2 w file addr st = .ok x) :
    readHeaderV2 w' file addr st = .ok x := by
  have key : ∀ a flags chunk st0 (k : St → Res St),
      (seekRun file a (i64 chunk) (readCommon w 2 flags chunk st0) >>= k) = .ok x →
      (seekRun file a (i64 chunk) (readCommon w' 2 flags chunk st0) >>= k) = .ok x := by
    intro a flags chunk st0 k hk
    rw [Res.bind_eq_ok] at hk ⊢
    obtain ⟨st', h5, h6⟩ := hk
    exact ⟨st', seekRun_mono (fun s x hs => readCommon_mono h _ _ _ _ _ _ hs) h5, h6⟩
  unfold readHeaderV2 at hx ⊢
  refine bind_mono (fun flags hf => ?_) hx
  by_cases c1 : flags / 32 % 2 = 1 <;> by_cases c2 : flags / 16 % 2 = 1 <;>
    simp only [c1, c2, ↓reduceIte] at hf ⊢
  · exact bind_mono (fun _ h => bind_mono (fun _ h => bind_mono (fun _ h => key _ _ _ _ _ h) h) h) hf
  · exact bind_mono (fun _ h => bind_mono (fun _ h => key _ _ _ _ _ h) h) hf
  · exact bind_mono (fun _ h => bind_mono (fun _ h => key _ _ _ _ _ h) h) hf
  · exact bind_mono (fun _ h => key _ _ _ _ _ h) hf

theorem readHeaderV1_mono {w w' : Task → St → Res St} (h : Extends w w') (file : Bytes) (addr : Nat)
    (st x : St) (hx : readHeaderV1 w file addr st = .ok x) :
    readHeaderV1 w' file addr st = .ok x := by
  unfold readHeaderV1 at hx ⊢
  simp only [Res.bind_eq_ok] at hx ⊢
  obtain ⟨⟨v, size⟩, h1, h2⟩ := hx
  exact ⟨⟨v, size⟩, h1, seekRun_mono (fun s x hs => readCommon_mono h _ _ _ _ _ _ hs) h2⟩

theorem readCont_mono {w w' : Task → St → Res St} (h : Extends w w') (file : Bytes)
    (offset size version flags : Nat) (st x : St)
    (hx : readCont w file offset size version flags st = .ok x) :
    readCont w' file offset size version flags st = .ok x := by
  unfold readCont at hx ⊢
  split at hx
  · cases hx
  · cases hx
  · rename_i s hs
    split at hx
    · cases hx
    · cases hx
    · rename_i st' t ht
      by_cases hv : 1 < version
      · simp only [hv, ↓reduceIte] at ht ⊢
        obtain ⟨u, s1, h1, h2⟩ := P.bind_ok ht
        obtain ⟨st2, s2, h3, h4⟩ := P.bind_ok h2
        have h5 := readCommon_mono h _ _ _ _ _ _ h3
        rw [P.bind_apply, h1]
        simp only
        rw [P.bind_apply, h5]
        simp only
        rw [h4]
        simpa only [hv, ↓reduceIte] using hx
      · simp only [hv, ↓reduceIte] at ht ⊢
        obtain ⟨st2, s2, h3, h4⟩ := P.bind_ok ht
        have h5 := readCommon_mono h _ _ _ _ _ _ h3
        rw [P.bind_apply, h5]
        simp only
        rw [h4]
        simpa only [hv, ↓reduceIte] using hx

/-! ### Symbol tables and heaps -/

theorem P.bind_mono {α β : Type} {p q : P α} {f g : α → P β}
    (h1 : ∀ s x, p s = .ok x → q s = .ok x) (h2 : ∀ a s x, f a s = .ok x → g a s = .ok x)
    (s : S) (x : β × S) (hx : (p >>= f) s = .ok x) : (q >>= g) s = .ok x := by
  obtain ⟨a, t, h3, h4⟩ := P.bind_ok hx
  rw [P.bind_apply, h1 _ _ h3]
  exact h2 _ _ _ h4

theorem P.lift_mono {α : Type} {r r' : Res α} (h : ∀ x, r = .ok x → r' = .ok x) (s : S) (x : α × S)
    (hx : P.lift r s = .ok x) : P.lift r' s = .ok x := by
  obtain ⟨h1, h2⟩ := P.lift_ok hx
  rw [h _ h1]
  simp only [P.lift, ← h2]

theorem bind_mono2 {α β : Type} {p q : Res α} {f g : α → Res β} {x : β}
    (h1 : ∀ a, p = .ok a → q = .ok a) (h : ∀ a, f a = .ok x → g a = .ok x)
    (hx : (p >>= f) = .ok x) : (q >>= g) = .ok x := by
  rw [Res.bind_eq_ok] at hx ⊢
  obtain ⟨a, h2, h3⟩ := hx
  exact ⟨a, h1 _ h2, h a h3⟩

theorem symLoop_mono {w w' : Task → St → Res St} (h : Extends w w') (file : Bytes) (heap n : Nat)
    (st : St) (s : S) (x : St × S) (hx : symLoop w file heap n st s = .ok x) :
    symLoop w' file heap n st s = .ok x := by
  induction n generalizing st s x with
  | zero => exact hx
  | succ n ih =>
    unfold symLoop at hx ⊢
    refine P.bind_mono (fun _ _ h => h) (fun e t y hy => ?_) _ _ hx
    obtain ⟨name, addr⟩ := e
    simp only at hy ⊢
    split at hy
    · cases hy
    · rename_i h1
      rw [if_neg h1]
      split at hy
      · rename_i h2; rw [if_pos h2]; exact hy
      · rename_i h2
        rw [if_neg h2]
        exact P.bind_mono (fun _ _ => P.lift_mono (fun _ => addObject_mono h _ _ _ _ _ _) _ _)
          (fun _ _ _ => ih _ _ _) _ _ hy

theorem readSymLeaf_mono {w w' : Task → St → Res St} (h : Extends w w') (file : Bytes)
    (heap addr : Nat) (st x : St) (hx : readSymLeaf w file heap addr st = .ok x) :
    readSymLeaf w' file heap addr st = .ok x := by
  unfold readSymLeaf at hx ⊢
  exact bind_mono (fun n hn => seekRun_mono (symLoop_mono h _ _ _ _) hn) hx

theorem readSymLeaves_mono {w w' : Task → St → Res St} (h : Extends w w') (file : Bytes)
    (heap : Nat) (as : List Nat) (st x : St) (hx : readSymLeaves w file heap as st = .ok x) :
    readSymLeaves w' file heap as st = .ok x := by
  induction as generalizing st with
  | nil => exact hx
  | cons a as ih =>
    unfold readSymLeaves at hx ⊢
    exact bind_mono2 (fun _ => readSymLeaf_mono h _ _ _ _ _) (fun _ => ih _) hx

theorem locate_mono (file : Bytes) (n m : Nat) (hnm : n ≤ m) (h : HeapInfo) (o : Nat) (x : Nat × Nat)
    (hx : locate file n h o = .ok x) : locate file m h o = .ok x := by
  induction n generalizing m h o with
  | zero => cases hx
  | succ n ih =>
    cases m with
    | zero => omega
    | succ m =>
      unfold locate at hx ⊢
      split at hx
      · exact hx
      · split at hx
        · cases hx
        · exact bind_mono (fun _ h => ih m (by omega) _ _ h) hx

/-- The fuel of the lookups may be larger. -/
def Dense.le (d d' : Dense) : Prop := d.link = d'.link ∧ d.attr = d'.attr ∧ d.fuel ≤ d'.fuel

theorem readRecord_mono {w w' : Task → St → Res St} (h : Extends w w') (file : Bytes) (d d' : Dense)
    (hd : d.le d') (ty : Nat) (st : St) (s : S) (x : St × S)
    (hx : readRecord w file d ty st s = .ok x) : readRecord w' file d' ty st s = .ok x := by
  obtain ⟨h1, h2, h3⟩ := hd
  unfold readRecord at hx ⊢
  split at hx
  · rename_i h5
    rw [if_pos h5]
    refine P.bind_mono (fun _ _ h => h) (fun _ => P.bind_mono (fun _ _ h => h) fun vt =>
      P.bind_mono (fun _ _ h => h) fun _ => P.bind_mono (fun _ _ h => h) fun off =>
      P.bind_mono (fun _ _ h => h) fun len => P.lift_mono fun y hy => ?_) _ _ hx
    rw [← h1]
    split at hy
    · cases hy
    · refine bind_mono2 (locate_mono file _ _ h3 _ _) (fun a ha => ?_) hy
      unfold readLinkAt at ha ⊢
      exact bind_mono (fun _ h6 => addLink_mono h _ _ _ _ _ h6) ha
  · rename_i h5
    rw [if_neg h5]
    split at hx
    · cases hx
    · rename_i h6
      rw [if_neg h6]
      split at hx
      · rename_i h8
        rw [if_pos h8]
        refine P.bind_mono (fun _ _ h => h) (fun vt => P.bind_mono (fun _ _ h => h) fun _ =>
          P.bind_mono (fun _ _ h => h) fun lo => P.bind_mono (fun _ _ h => h) fun hi =>
          P.bind_mono (fun _ _ h => h) fun len => P.bind_mono (fun _ _ h => h) fun _ =>
          P.bind_mono (fun _ _ h => h) fun _ => P.bind_mono (fun _ _ h => h) fun _ =>
          P.lift_mono fun y hy => ?_) _ _ hx
        rw [← h2]
        split at hy
        · cases hy
        · exact bind_mono2 (locate_mono file _ _ h3 _ _) (fun a ha => ha) hy
      · cases hx

theorem readRecords_mono {w w' : Task → St → Res St} (h : Extends w w') (file : Bytes) (d d' : Dense)
    (hd : d.le d') (ty n : Nat) (st : St) (s : S) (x : St × S)
    (hx : readRecords w file d ty n st s = .ok x) : readRecords w' file d' ty n st s = .ok x := by
  induction n generalizing st s x with
  | zero => exact hx
  | succ n ih =>
    unfold readRecords at hx ⊢
    exact P.bind_mono (readRecord_mono h file d d' hd ty st) (fun _ => ih _) _ _ hx

theorem childLoop_mono {c c' : Nat → Nat → St → Res St}
    (h : ∀ a n st x, c a n st = .ok x → c' a n st = .ok x) (few deep : Bool)
    (n : Nat) (st : St) (s : S) (x : St × S) (hx : childLoop c few deep n st s = .ok x) :
    childLoop c' few deep n st s = .ok x := by
  induction n generalizing st s x with
  | zero => exact hx
  | succ n ih =>
    unfold childLoop at hx ⊢
    exact P.bind_mono (fun _ _ h => h) (fun a => P.bind_mono (fun _ _ h => h) fun _ =>
      P.bind_mono (fun _ _ h => h) fun k => P.bind_mono (P.lift_mono (h _ _ _)) fun st =>
      P.bind_mono (fun _ _ h => h) fun _ => ih _) _ _ hx

theorem readNode_mono {w w' : Task → St → Res St} (h : Extends w w') (file : Bytes) (d d' : Dense)
    (hd : d.le d') (nodeSize recordSize depth addr n : Nat) (st x : St)
    (hx : readNode w file d nodeSize recordSize depth addr n st = .ok x) :
    readNode w' file d' nodeSize recordSize depth addr n st = .ok x := by
  induction depth generalizing addr n st x with
  | zero =>
    unfold readNode readLeafNode at hx ⊢
    exact bind_mono2 (fun _ => seekRun_mono (P.bind_mono (fun _ _ h => h) fun _ =>
      P.bind_mono (fun _ _ h => h) fun _ => P.bind_mono (fun _ _ h => h) fun ty =>
      readRecords_mono h file d d' hd _ _ _)) (fun _ h => h) hx
  | succ depth ih =>
    unfold readNode at hx ⊢
    exact bind_mono2 (fun _ => seekRun_mono (P.bind_mono (fun _ _ h => h) fun _ =>
      P.bind_mono (fun _ _ h => h) fun _ => P.bind_mono (fun _ _ h => h) fun _ =>
      P.bind_mono (fun _ _ h => h) fun ty =>
      P.bind_mono (readRecords_mono h file d d' hd _ _ _) fun _ =>
      childLoop_mono ih _ _ _ _)) (fun _ h => h) hx

theorem readBTree2_mono {w w' : Task → St → Res St} (h : Extends w w') (file : Bytes) (d d' : Dense)
    (hd : d.le d') (addr : Nat) (st x : St) (hx : readBTree2 w file d addr st = .ok x) :
    readBTree2 w' file d' addr st = .ok x := by
  unfold readBTree2 at hx ⊢
  exact bind_mono (fun r => bind_mono fun _ => readNode_mono h file d d' hd _ _ _ _ _ _ _) hx

theorem readDense_mono {w w' : Task → St → Res St} (h : Extends w w') (file : Bytes) (n m : Nat)
    (hnm : n ≤ m) (st x : St) (hx : readDense w file n st = .ok x) :
    readDense w' file m st = .ok x := by
  unfold readDense at hx ⊢
  refine bind_mono2 (fun y hy => ?_) (fun a ha => ?_) hx
  · unfold readDenseAttrs at hy ⊢
    split at hy
    · exact hy
    · split at hy
      · rename_i h1
        simp only [h1, ne_eq, not_false_eq_true, ↓reduceIte]
        exact bind_mono (fun _ => bind_mono2
          (fun _ => readBTree2_mono h file (Dense.mk _ _ n) (Dense.mk _ _ m) ⟨rfl, rfl, hnm⟩ _ _ _) fun _ h => h) hy
      · rename_i h1
        rw [if_neg h1]
        exact hy
  · unfold readDenseLinks at ha ⊢
    split at ha
    · exact ha
    · split at ha
      · rename_i h1
        simp only [h1, ne_eq, not_false_eq_true, ↓reduceIte]
        exact bind_mono (fun _ => readBTree2_mono h file (Dense.mk _ _ n) (Dense.mk _ _ m) ⟨rfl, rfl, hnm⟩ _ _ _) ha
      · rename_i h1
        rw [if_neg h1]
        exact ha

theorem walk_mono (file : Bytes) (n m : Nat) (hnm : n ≤ m) : Extends (walk file n) (walk file m) := by
  induction n generalizing m with
  | zero => intro t st x hx; cases hx
  | succ n ih =>
    cases m with
    | zero => omega
    | succ m =>
      have h := ih m (by omega)
      intro t st x hx
      cases t with
      | header addr =>
        simp only [walk] at hx ⊢
        cases hm : isMagic file ohdr addr with
        | err e => rw [hm] at hx; cases hx
        | panic => rw [hm] at hx; cases hx
        | ok b =>
          rw [hm] at hx
          cases b with
          | true => exact readHeaderV2_mono h _ _ _ _ hx
          | false => exact readHeaderV1_mono h _ _ _ _ hx
      | cont a b c d => exact readCont_mono h _ _ _ _ _ _ _ hx
      | symtab a b =>
        simp only [walk, readSymTable] at hx ⊢
        exact bind_mono (fun _ => readSymLeaves_mono h _ _ _ _ _) hx
      | dense => exact readDense_mono h _ _ _ (by omega) _ _ hx

theorem openN_mono (file : Bytes) (n m : Nat) (hnm : n ≤ m) (o : Obj) (h : openN n file = .ok o) :
    openN m file = .ok o := by
  have key : ∀ root a (f g : St → Res Obj), (∀ st, f st = .ok o → g st = .ok o) →
      (walk file n (.header root) a >>= f) = .ok o → (walk file m (.header root) a >>= g) = .ok o :=
    fun root a f g hfg hk => bind_mono2 (fun _ => walk_mono file n m hnm _ _ _) hfg hk
  have dump : ∀ st, (dumpObject (walk file n) st >>= fun st => pure (Obj.mk st.info st.kids)) = .ok o →
      (dumpObject (walk file m) st >>= fun st => pure (Obj.mk st.info st.kids)) = .ok o :=
    fun st hk => bind_mono2 (fun _ => dumpObject_mono (walk_mono file n m hnm) _ _) (fun _ h => h) hk
  unfold openN at h ⊢
  refine bind_mono (fun r hr => ?_) h
  obtain ⟨root, ext⟩ := r
  by_cases he : ext ≠ invalidAddress
  · simp only [he, ne_eq, not_false_eq_true, ↓reduceIte] at hr ⊢
    rw [Res.bind_eq_ok] at hr ⊢
    obtain ⟨a, h1, h2⟩ := hr
    refine ⟨a, ?_, ?_⟩
    · cases hw : walk file n (.header ext) {} with
      | err e => rw [hw] at h1; cases h1
      | panic => rw [hw] at h1; cases h1
      | ok st => rw [hw] at h1; rw [walk_mono file n m hnm _ _ _ hw]; exact h1
    · split at h2
      · cases h2
      · rename_i hr; rw [if_neg hr]; exact key _ _ _ _ (fun st => dump _) h2
  · simp only [he, ↓reduceIte, Res.pure_eq, Res.bind_ok] at hr ⊢
    split at hr
    · cases hr
    · rename_i hr'; rw [if_neg hr']; exact key _ _ _ _ (fun st => dump _) hr

/-- A file opens in at most one way. -/
theorem OpensTo.unique {file : Bytes} {a b : Obj} (ha : OpensTo file a) (hb : OpensTo file b) :
    a = b := by
  obtain ⟨n, hn⟩ := ha
  obtain ⟨m, hm⟩ := hb
  have h1 := openN_mono file n (n + m) (by omega) a hn
  have h2 := openN_mono file m (n + m) (by omega) b hm
  rw [h1] at h2
  exact Res.ok.inj h2

end Verif.H5
