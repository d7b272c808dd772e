import Verif.Lemmas.H5SaneSum
/-!
Reading the superblock of any bytes: it does not crash, and an accepted file is as long as the
superblock says.
-/
namespace Verif.H5.Sane
open Verif.H5

/-- Reading does not crash. -/
def Safe {α : Type} (p : P α) : Prop := ∀ s, p s ≠ .panic

/-- Reading takes this many bytes. -/
def Adv {α : Type} (k : Nat) (p : P α) : Prop :=
  ∀ s a t, p s = .ok (a, t) → t = ⟨s.pos + k, s.rem.drop k⟩

theorem Safe.bind {α β : Type} {p : P α} {f : α → P β} (h1 : Safe p) (h2 : ∀ a, Safe (f a)) :
    Safe (p >>= f) := by
  intro s
  rw [P.bind_apply]
  cases hp : p s with
  | ok r => exact h2 _ _
  | err e => simp
  | panic => exact absurd hp (h1 s)

theorem Safe.pure {α : Type} (a : α) : Safe (pure a : P α) := by
  intro s
  rw [P.pure_apply]
  simp

theorem Safe.rdN (n : Nat) : Safe (rdN n) := by
  intro s
  unfold H5.rdN
  split <;> simp

theorem Safe.assert (b : Bool) (e : Err) : Safe (P.assert b e) := by
  intro s
  unfold P.assert
  split
  · rw [P.pure_apply]; simp
  · simp [P.fail]

theorem Safe.read8 : Safe read8 := (Safe.rdN 1).bind fun _ => Safe.pure _
theorem Safe.read16 : Safe read16 := (Safe.rdN 2).bind fun _ => Safe.pure _
theorem Safe.read32 : Safe read32 := (Safe.rdN 4).bind fun _ => Safe.pure _
theorem Safe.read64 : Safe read64 := (Safe.rdN 8).bind fun _ => Safe.pure _
theorem Safe.checkVal (a b : Nat) : Safe (checkVal a b) := Safe.assert _ _
theorem Safe.checkMagic (n : Nat) (m : Bytes) : Safe (checkMagic n m) :=
  (Safe.rdN n).bind fun _ => Safe.assert _ _

theorem Safe.ite {α : Type} {c : Prop} [Decidable c] {p q : P α} (h1 : Safe p) (h2 : Safe q) :
    Safe (if c then p else q) := by
  split
  · exact h1
  · exact h2

theorem Adv.bind {α β : Type} {k m : Nat} {p : P α} {f : α → P β} (h1 : Adv k p)
    (h2 : ∀ a, Adv m (f a)) : Adv (k + m) (p >>= f) := by
  intro s a t h
  obtain ⟨b, u, h3, h4⟩ := P.bind_ok h
  have e1 := h1 _ _ _ h3
  have e2 := h2 _ _ _ _ h4
  subst e1
  subst e2
  simp [Nat.add_assoc]

theorem Adv.pure {α : Type} (a : α) : Adv 0 (pure a : P α) := by
  intro s b t h
  rw [P.pure_apply] at h
  cases h
  simp

theorem Adv.rdN (n : Nat) : Adv n (rdN n) := fun _ _ _ h => (rdN_ok h).2.2
theorem Adv.read8 : Adv 1 read8 := (Adv.rdN 1).bind fun _ => Adv.pure _
theorem Adv.read16 : Adv 2 read16 := (Adv.rdN 2).bind fun _ => Adv.pure _
theorem Adv.read32 : Adv 4 read32 := (Adv.rdN 4).bind fun _ => Adv.pure _
theorem Adv.read64 : Adv 8 read64 := (Adv.rdN 8).bind fun _ => Adv.pure _

theorem Adv.assert (b : Bool) (e : Err) : Adv 0 (P.assert b e) := by
  intro s a t h
  have := (assert_ok h).2
  simp only at this
  subst this
  simp

theorem Adv.checkVal (a b : Nat) : Adv 0 (checkVal a b) := Adv.assert _ _
theorem Adv.checkMagic (n : Nat) (m : Bytes) : Adv n (checkMagic n m) :=
  (Adv.rdN n).bind fun _ => Adv.assert _ _

theorem read64_ok {s t : S} {x : Nat} (h : read64 s = .ok (x, t)) : x = leDec (s.rem.take 8) := by
  obtain ⟨b, u, h1, h2⟩ := P.bind_ok h
  obtain ⟨h3, h4, h5⟩ := rdN_ok h1
  cases h2
  rw [h4]

theorem midV01_safe (v : Nat) : Safe (readSuperblockMidV01 v) := by
  unfold readSuperblockMidV01
  refine Safe.read8.bind fun _ => Safe.read8.bind fun _ => (Safe.checkVal _ _).bind fun _ =>
    Safe.read8.bind fun _ => (Safe.checkVal _ _).bind fun _ =>
    Safe.read8.bind fun _ => (Safe.checkVal _ _).bind fun _ =>
    Safe.read8.bind fun _ => (Safe.assert _ _).bind fun _ =>
    Safe.read8.bind fun _ => (Safe.checkVal _ _).bind fun _ =>
    Safe.read8.bind fun _ => (Safe.checkVal _ _).bind fun _ =>
    Safe.read16.bind fun _ => (Safe.assert _ _).bind fun _ =>
    Safe.read16.bind fun _ => Safe.read32.bind fun _ => Safe.ite ?_ (Safe.pure _)
  exact Safe.read16.bind fun _ => (Safe.assert _ _).bind fun _ => Safe.read16.bind fun _ =>
    Safe.checkVal _ _

theorem midV01_adv (v : Nat) : Adv (if v = 1 then 19 else 15) (readSuperblockMidV01 v) := by
  unfold readSuperblockMidV01
  have h : ∀ (k : Nat) (q : P Unit), Adv k q → Adv (15 + k) (do
      let _ ← read8
      let b ← read8; checkVal 0 b
      let b ← read8; checkVal 0 b
      let b ← read8; checkVal 0 b
      let b ← read8; P.assert (b == 8) .offsetSize
      let b ← read8; checkVal 8 b
      let b ← read8; checkVal 0 b
      let s ← read16; P.assert (s == 4) .assertFail
      let _ ← read16
      let _ ← read32
      q) := by
    intro k q hq
    have := Adv.read8.bind fun _ => Adv.read8.bind fun b => (Adv.checkVal 0 b).bind fun _ =>
      Adv.read8.bind fun b => (Adv.checkVal 0 b).bind fun _ =>
      Adv.read8.bind fun b => (Adv.checkVal 0 b).bind fun _ =>
      Adv.read8.bind fun b => (Adv.assert (b == 8) .offsetSize).bind fun _ =>
      Adv.read8.bind fun b => (Adv.checkVal 8 b).bind fun _ =>
      Adv.read8.bind fun b => (Adv.checkVal 0 b).bind fun _ =>
      Adv.read16.bind fun s => (Adv.assert (s == 4) .assertFail).bind fun _ =>
      Adv.read16.bind fun _ => Adv.read32.bind fun _ => hq
    intro s a t hst
    have := this s a t hst
    rw [this]
    have e : 1 + (1 + (0 + (1 + (0 + (1 + (0 + (1 + (0 + (1 + (0 + (1 + (0 + (2 + (0 + (2 + (4 + k)))))))))))))))) =
        15 + k := by omega
    rw [e]
  by_cases hv : v = 1
  · simp only [hv, ↓reduceIte]
    exact h 4 _ (Adv.read16.bind fun _ => (Adv.assert _ _).bind fun _ => Adv.read16.bind fun _ =>
      Adv.checkVal _ _)
  · simp only [hv, ↓reduceIte]
    exact h 0 _ (Adv.pure _)

theorem readV01_safe (n v : Nat) : Safe (readSuperblockV01 n v) := by
  unfold readSuperblockV01
  refine (midV01_safe v).bind fun _ => Safe.read64.bind fun _ => (Safe.checkVal _ _).bind fun _ =>
    Safe.read64.bind fun _ => (Safe.checkVal _ _).bind fun _ =>
    Safe.read64.bind fun _ => (Safe.assert _ _).bind fun _ =>
    Safe.read64.bind fun _ => Safe.read64.bind fun _ => Safe.read64.bind fun _ =>
    Safe.read32.bind fun _ => Safe.read32.bind fun _ => (Safe.checkVal _ _).bind fun _ =>
    Safe.ite ?_ (Safe.pure _)
  exact Safe.read64.bind fun _ => Safe.read64.bind fun _ => Safe.pure _

theorem readV23_safe (n : Nat) : Safe (readSuperblockV23 n) := by
  unfold readSuperblockV23
  exact Safe.read8.bind fun _ => (Safe.assert _ _).bind fun _ =>
    Safe.read8.bind fun _ => (Safe.checkVal _ _).bind fun _ => Safe.read8.bind fun _ =>
    Safe.read64.bind fun _ => (Safe.checkVal _ _).bind fun _ => Safe.read64.bind fun _ =>
    Safe.read64.bind fun _ => (Safe.assert _ _).bind fun _ => Safe.read64.bind fun _ => Safe.pure _

theorem readV01_eof {n v : Nat} {s t : S} {r : Nat} (h : readSuperblockV01 n v s = .ok (r, t)) :
    leDec ((s.rem.drop ((if v = 1 then 19 else 15) + 16)).take 8) ≤ n := by
  unfold readSuperblockV01 at h
  obtain ⟨_, u1, h1, h⟩ := P.bind_ok h
  obtain ⟨_, u2, h2, h⟩ := P.bind_ok h
  obtain ⟨_, u3, h3, h⟩ := P.bind_ok h
  obtain ⟨_, u4, h4, h⟩ := P.bind_ok h
  obtain ⟨_, u5, h5, h⟩ := P.bind_ok h
  obtain ⟨x, u6, h6, h⟩ := P.bind_ok h
  obtain ⟨_, u7, h7, h⟩ := P.bind_ok h
  have e1 := midV01_adv v _ _ _ h1
  have e2 := Adv.read64 _ _ _ h2
  have e3 := Adv.checkVal _ _ _ _ _ h3
  have e4 := Adv.read64 _ _ _ h4
  have e5 := Adv.checkVal _ _ _ _ _ h5
  have e6 := read64_ok h6
  have e7 := (assert_ok h7).1
  subst e1 e2 e3 e4 e5
  simp only [List.drop_drop, Nat.add_zero] at e6
  rw [← e6]
  simpa using e7

theorem readV23_eof {n : Nat} {s t : S} {r : Nat × Nat} (h : readSuperblockV23 n s = .ok (r, t)) :
    leDec ((s.rem.drop 19).take 8) ≤ n := by
  unfold readSuperblockV23 at h
  obtain ⟨_, u1, h1, h⟩ := P.bind_ok h
  obtain ⟨_, u2, h2, h⟩ := P.bind_ok h
  obtain ⟨_, u3, h3, h⟩ := P.bind_ok h
  obtain ⟨_, u4, h4, h⟩ := P.bind_ok h
  obtain ⟨_, u5, h5, h⟩ := P.bind_ok h
  obtain ⟨_, u6, h6, h⟩ := P.bind_ok h
  obtain ⟨_, u7, h7, h⟩ := P.bind_ok h
  obtain ⟨_, u8, h8, h⟩ := P.bind_ok h
  obtain ⟨x, u9, h9, h⟩ := P.bind_ok h
  obtain ⟨_, u10, h10, h⟩ := P.bind_ok h
  have e1 := Adv.read8 _ _ _ h1
  have e2 := Adv.assert _ _ _ _ _ h2
  have e3 := Adv.read8 _ _ _ h3
  have e4 := Adv.checkVal _ _ _ _ _ h4
  have e5 := Adv.read8 _ _ _ h5
  have e6 := Adv.read64 _ _ _ h6
  have e7 := Adv.checkVal _ _ _ _ _ h7
  have e8 := Adv.read64 _ _ _ h8
  have e9 := read64_ok h9
  have e10 := (assert_ok h10).1
  subst e1 e2 e3 e4 e5 e6 e7 e8
  simp only [List.drop_drop, Nat.add_zero] at e9
  rw [← e9]
  simpa using e10

theorem newSeek_safe (file : Bytes) (addr : Nat) (size : Int) : newSeek file addr size ≠ .panic := by
  unfold newSeek
  split <;> simp

theorem stream_safe (n : Nat) (hn : n < 2 ^ 32) : Safe (computeChecksumStream n) := by
  intro s h
  have hle : n ≤ s.rem.length := by
    unfold computeChecksumStream at h
    rw [P.bind_apply] at h
    cases h1 : rdN (4 * (n / 4)) s with
    | err e => rw [h1] at h; cases h
    | panic => exact absurd h1 (Safe.rdN _ _)
    | ok r =>
      obtain ⟨b, u⟩ := r
      obtain ⟨k1, k2, k3⟩ := rdN_ok h1
      rw [h1] at h
      by_cases hr : 0 < n % 4
      · simp only [hr, ↓reduceIte] at h
        rw [P.bind_apply] at h
        cases h2 : rdN (n % 4) u with
        | err e => rw [h2] at h; cases h
        | panic => exact absurd h2 (Safe.rdN _ _)
        | ok r2 =>
          obtain ⟨b2, u2⟩ := r2
          obtain ⟨k4, _⟩ := rdN_ok h2
          rw [k3] at k4
          simp only [List.length_drop] at k4
          omega
      · omega
  have e : s = ⟨s.pos, s.rem.take n ++ s.rem.drop n⟩ := by rw [List.take_append_drop]
  have hl : (s.rem.take n).length = n := by
    rw [List.length_take]
    omega
  have h' : computeChecksumStream (s.rem.take n).length ⟨s.pos, s.rem.take n ++ s.rem.drop n⟩ = .panic := by
    rw [hl, ← e]
    exact h
  obtain ⟨c, hc, _⟩ := checksum_lookup3 (s.rem.take n) (by omega)
  rw [stream_eq, hc] at h'
  cases h'

theorem checkChecksum_safe (file : Bytes) (addr n : Nat) (hn : n < 2 ^ 32) :
    checkChecksum file addr n ≠ .panic := by
  unfold checkChecksum
  split
  · simp
  · rename_i h; exact absurd h (newSeek_safe _ _ _)
  · rename_i s hs
    have := ((stream_safe n hn).bind fun h => Safe.read32.bind fun sum =>
      Safe.assert (h.toNat == sum) .assertFail) s
    split
    · simp
    · simp
    · rename_i h; exact absurd h this

/-- Reading the superblock does not crash. -/
theorem readSuperblock_safe (file : Bytes) : readSuperblock file ≠ .panic := by
  unfold readSuperblock
  split
  · simp
  split
  · simp
  · rename_i h; exact absurd h (newSeek_safe _ _ _)
  · rename_i s hs
    split
    · simp
    · rename_i h
      exact absurd h (((Safe.checkMagic 8 magic).bind fun _ => Safe.read8) s)
    · rename_i version t ht
      split
      · split
        · simp
        · rename_i h; exact absurd h (newSeek_safe _ _ _)
        · rename_i u hu
          have := readV01_safe file.length version u
          cases h : readSuperblockV01 file.length version u with
          | ok r => simp [Res.map]
          | err e => simp [Res.map]
          | panic => exact absurd h this
      · split
        · have := readV23_safe file.length t
          split
          · simp
          · rename_i h; exact absurd h this
          · cases h : checkChecksum file 0 44 with
            | ok r => simp [Res.map]
            | err e => simp [Res.map]
            | panic => exact absurd h (checkChecksum_safe _ _ _ (by omega))
        · simp

/-- An accepted file is as long as its superblock says. -/
theorem readSuperblock_eof {file : Bytes} {r : Nat × Nat} (h : readSuperblock file = .ok r) :
    48 ≤ file.length ∧ (byteAt file 8 = 0 ∨ byteAt file 8 = 1 → 96 ≤ file.length) ∧
      endOfFile file ≤ file.length := by
  unfold readSuperblock at h
  split at h
  · cases h
  · rename_i hlen
    refine ⟨by omega, ?_⟩
    split at h
    · cases h
    · cases h
    · rename_i s hs
      split at h
      · cases h
      · cases h
      · rename_i version t hv
        have et := ((Adv.checkMagic 8 magic).bind fun _ => Adv.read8) _ _ _ hv
        obtain ⟨_, u, m1, m2⟩ := P.bind_ok hv
        have eu := Adv.checkMagic _ _ _ _ _ m1
        obtain ⟨r1, r2, _⟩ := read8_ok m2
        subst eu
        simp only [List.length_drop] at r1
        have hrem := newSeek_ok (n := 48) (by omega) hs (by omega)
        have hpos : s.pos = 0 := by
          unfold newSeek at hs
          split at hs
          · cases hs; rfl
          · cases hs
        simp only [Nat.reduceAdd] at et
        rw [hpos, Nat.zero_add] at et
        have e8 : version = byteAt file 8 := by
          rw [r2, leDec_one _ (by simp only [List.length_drop]; omega), hrem]
          unfold byteAt
          simp only [List.getD_eq_getElem?_getD, List.getElem?_drop, List.getElem?_take]
          rw [if_pos (by omega)]
        rw [List.drop_zero] at hrem
        split at h
        · rename_i h01
          rw [et] at h
          simp only at h
          split at h
          · cases h
          · cases h
          · rename_i w hw
            cases hr : readSuperblockV01 file.length version w with
            | err e => rw [hr] at h; cases h
            | panic => rw [hr] at h; cases h
            | ok q =>
              obtain ⟨q1, q2⟩ := q
              have hb := readV01_eof hr
              have hpos : 0 < w.rem.length := by
                cases hw0 : w.rem with
                | nil =>
                  unfold readSuperblockV01 readSuperblockMidV01 at hr
                  obtain ⟨_, _, k1, _⟩ := P.bind_ok hr
                  obtain ⟨_, _, k2, _⟩ := P.bind_ok k1
                  have := (read8_ok k2).1
                  rw [hw0] at this
                  simp at this
                | cons => simp
              have hwr : w.rem = (file.drop 9).take ((if version = 0 then 96 else 100) - 9) := by
                by_cases hv0 : version = 0
                · simp only [hv0, ↓reduceIte] at hw ⊢
                  exact newSeek_ok (n := 87) (by omega) hw hpos
                · simp only [hv0, ↓reduceIte] at hw ⊢
                  exact newSeek_ok (n := 91) (by omega) hw hpos
              rw [hwr] at hb
              unfold endOfFile
              rw [← e8]
              refine ⟨fun _ => ?_, ?_⟩
              · have key : ∀ n : Nat, 87 ≤ n → n ≤ 91 → newSeek file 9 n = .ok w → 96 ≤ file.length := by
                  intro n n1 n2 hwn
                  unfold newSeek at hwn
                  have e : wrap64 (i64 9 + n) = 9 + n := by
                    rw [show i64 9 = 9 from rfl]
                    unfold wrap64
                    omega
                  rw [e] at hwn
                  split at hwn
                  · omega
                  · cases hwn
                by_cases hv0 : version = 0
                · simp only [hv0, ↓reduceIte] at hw
                  exact key 87 (by omega) (by omega) hw
                · simp only [hv0, ↓reduceIte] at hw
                  exact key 91 (by omega) (by omega) hw
              rcases h01 with h0 | h1
              · subst h0
                simp only [List.drop_take, List.take_take, List.drop_drop] at hb
                simpa using hb
              · subst h1
                simp only [List.drop_take, List.take_take, List.drop_drop] at hb
                simpa using hb
        · rename_i h01
          split at h
          · split at h
            · cases h
            · cases h
            · rename_i q1 q2 hr
              have hb := readV23_eof hr
              rw [et] at hb
              simp only [List.drop_drop] at hb
              rw [hrem, List.drop_take, List.take_take] at hb
              unfold endOfFile
              rw [← e8, if_neg (fun e => h01 (.inl e)), if_neg (fun e => h01 (.inr e))]
              exact ⟨fun h => absurd h h01, hb⟩
          · cases h

end Verif.H5.Sane
