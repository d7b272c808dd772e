import Verif.Lemmas.H5Type
import Verif.Lemmas.H5Msg
/-!
A calculus for "this parser reads these bytes", with whatever follows them.
-/
namespace Verif.H5

/-- `p` reads `b` and results in `a`. When `last` is set nothing may follow. -/
def PL {α : Type} (last : Bool) (p : P α) (b : Bytes) (a : α) : Prop :=
  ∀ q rest, (last = true → rest = []) → p ⟨q, b ++ rest⟩ = .ok (a, ⟨q + b.length, rest⟩)

/-- `p` reads `b` and results in `a`, whatever follows. -/
abbrev Parses {α : Type} (p : P α) (b : Bytes) (a : α) : Prop := PL false p b a

namespace PL
variable {α β : Type} {l : Bool}

theorem weak {p : P α} {b : Bytes} {a : α} (h : Parses p b a) : PL l p b a :=
  fun q rest _ => h q rest (by simp)

theorem apply {p : P α} {b : Bytes} {a : α} (h : Parses p b a) (q : Nat) (rest : Bytes) :
    p ⟨q, b ++ rest⟩ = .ok (a, ⟨q + b.length, rest⟩) := h q rest (by simp)

theorem all {p : P α} {b : Bytes} {a : α} (h : PL l p b a) (q : Nat) :
    p ⟨q, b⟩ = .ok (a, ⟨q + b.length, []⟩) := by
  simpa using h q [] (fun _ => rfl)

theorem pure (a : α) : Parses (Pure.pure a : P α) [] a := fun q rest _ => rfl

/-- The first parser may be followed by the second. -/
theorem bind {p : P α} {f : α → P β} {b b' : Bytes} {a : α} {c : β} (h : Parses p b a)
    (h' : PL l (f a) b' c) : PL l (p >>= f) (b ++ b') c := by
  intro q rest hr
  rw [List.append_assoc, P.bind_apply, h.apply]
  simp only
  rw [h' _ _ hr, List.length_append, Nat.add_assoc]

/-- The first parser may be the last: then the second reads nothing. -/
theorem bindl {l' : Bool} {p : P α} {f : α → P β} {b b' : Bytes} {a : α} {c : β} (h : PL l' p b a)
    (h' : PL l (f a) b' c) (hl : l' = true → b' = [] ∧ l = true) : PL l (p >>= f) (b ++ b') c := by
  intro q rest hr
  rw [List.append_assoc, P.bind_apply, h _ _ (fun e => by
    obtain ⟨e1, e2⟩ := hl e
    rw [e1, hr e2]
    rfl)]
  simp only
  rw [h' _ _ hr, List.length_append, Nat.add_assoc]

/-- A result that is computed. -/
theorem map {p : P α} {f : α → P β} {b : Bytes} {a : α} {c : β} (h : PL l p b a)
    (h' : ∀ s, f a s = .ok (c, s)) : PL l (p >>= f) b c := by
  intro q rest hr
  rw [P.bind_apply, h _ _ hr]
  exact h' _

/-- A step that reads nothing. -/
theorem skip {p : P α} {f : α → P β} {b : Bytes} {a : α} {c : β}
    (h : ∀ s, p s = .ok (a, s)) (h' : PL l (f a) b c) : PL l (p >>= f) b c := by
  intro q rest hr
  rw [P.bind_apply, h]
  exact h' _ _ hr

theorem congr {p p' : P α} {b b' : Bytes} {a : α} (h : PL l p b a) (e : p' = p) (e' : b' = b) :
    PL l p' b' a := by rw [e, e']; exact h

end PL

theorem P.assert_ok {b : Bool} (e : Err) (h : b = true) (s : S) : P.assert b e s = .ok ((), s) := by
  subst h; rfl

theorem checkVal_ok {a b : Nat} (h : a = b) (s : S) : checkVal a b s = .ok ((), s) := by
  subst h
  exact P.assert_ok _ (by simp) s

theorem Parses.rdN {n : Nat} {b : Bytes} (h : b.length = n) : Parses (rdN n) b b := fun q rest _ => by
  rw [rdN_append n q b rest h, h]

theorem Parses.read8 {n : Nat} (h : n < 256) : Parses read8 (leEnc 1 n) n := fun q rest _ => by
  rw [read8_app q n rest h, leEnc_length]

theorem Parses.read16 {n : Nat} (h : n < 65536) : Parses read16 (leEnc 2 n) n := fun q rest _ => by
  rw [read16_app q n rest h, leEnc_length]

theorem Parses.read32 {n : Nat} (h : n < 2 ^ 32) : Parses read32 (leEnc 4 n) n := fun q rest _ => by
  rw [read32_app q n rest h, leEnc_length]

theorem Parses.read64 {n : Nat} (h : n < 2 ^ 64) : Parses read64 (leEnc 8 n) n := fun q rest _ => by
  rw [read64_app q n rest h, leEnc_length]

theorem Parses.zeroes (n : Nat) : Parses (checkZeroes n) (List.replicate n 0) () := fun q rest _ => by
  simp only [checkZeroes, P.bind_apply, rdN_append n q _ rest (List.length_replicate ..)]
  rw [if_pos (by simp)]
  simp [P.pure_apply]

theorem leEnc_zero (n : Nat) : leEnc n 0 = List.replicate n 0 := by
  induction n with
  | zero => rfl
  | succ n ih => simp [leEnc, ih, List.replicate_succ]

theorem Parses.zero (n : Nat) : Parses (checkZeroes n) (leEnc n 0) () := by
  rw [leEnc_zero]
  exact Parses.zeroes n

theorem Parses.name {n : Bytes} (h : (0 : UInt8) ∉ n) : Parses (readName 0) (n ++ [0]) n :=
  fun q rest _ => by
    rw [List.append_assoc]
    exact (readName_ok q n rest h).trans (by simp)

/-- A name padded to a multiple of eight bytes. -/
theorem Parses.namePad {n : Bytes} (h : (0 : UInt8) ∉ n) :
    Parses (readName 7) (n ++ [0] ++ List.replicate ((8 - (n.length + 1) % 8) % 8) 0) n := by
  intro q rest _
  generalize hk : (8 - (n.length + 1) % 8) % 8 = k
  have hz := (Parses.zeroes k).apply (q + (n.length + 1)) rest
  rw [show n ++ [0] ++ List.replicate k 0 ++ rest = n ++ (0 :: (List.replicate k 0 ++ rest)) by simp]
  have hne : ¬ n.length = (n ++ 0 :: (List.replicate k 0 ++ rest)).length := by
    simp only [List.length_append, List.length_cons]
    omega
  have hd : (n ++ 0 :: (List.replicate k 0 ++ rest)).drop (n.length + 1) = List.replicate k 0 ++ rest := by
    rw [show n ++ 0 :: (List.replicate k 0 ++ rest) = (n ++ [0]) ++ (List.replicate k 0 ++ rest) by simp,
      show n.length + 1 = (n ++ [(0 : UInt8)]).length by simp]
    exact List.drop_left
  simp only [readName, P.bind_apply, takeWhile_name _ _ h, hne, ↓reduceIte, hd, Nat.zero_lt_succ,
    P.pure_apply, gt_iff_lt, hk, hz]
  simp only [List.length_append, List.length_cons, List.length_nil, List.length_replicate]
  congr 3
  omega

end Verif.H5
