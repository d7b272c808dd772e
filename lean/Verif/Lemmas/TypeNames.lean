import Verif.Model.AttrTypes
import Verif.Spec.TypeNames
/-!
Lemmas on the printers of types.
-/
namespace Verif

theorem pGoTypeZero_eq (o : Bool → Bytes) : ∀ t, IsData t → pGoTypeZero o t = goName t
  | .num k, _ => by cases k <;> rfl
  | .str, _ => rfl
  | .slice t, h => by simp [pGoTypeZero, goName, pGoTypeZero_eq o t h]

theorem pGoType_eq (o : Bool → Bytes) : ∀ v : GoVal, WellTyped v → IsData v.ty →
    pGoType o v = goName v.ty
  | .num k _, _, _ => by cases k <;> rfl
  | .str _, _, _ => rfl
  | .slice t [], _, h => by simp [pGoType, GoVal.ty, goName, pGoTypeZero_eq o t h]
  | .slice t (x :: xs), hw, h => by
    simp only [WellTyped, AllTyped] at hw
    simp only [GoVal.ty, IsData] at h
    rw [pGoType, pGoType_eq o x hw.2.1 (hw.1 ▸ h), hw.1]
    rfl
  | .other _, _, h => h.elim
  | .user _, _, h => h.elim

theorem goName_inj : ∀ s t : GoTy, IsData s → IsData t → goName s = goName t → s = t := by
  intro s
  induction s with
  | num k =>
    intro t _ ht h
    cases t with
    | num k' => cases k <;> cases k' <;> first | rfl | (revert h; decide)
    | str => cases k <;> (revert h; decide)
    | slice t => 
      have : (goName (.num k)).head? = some 91 := by rw [h]; rfl
      exfalso; cases k <;> (revert this; decide)
    | other => exact ht.elim
  | str =>
    intro t _ ht h
    cases t with
    | num k' => cases k' <;> (revert h; decide)
    | str => rfl
    | slice t => 
      have : (goName .str).head? = some 91 := by rw [h]; rfl
      exfalso; revert this; decide
    | other => exact ht.elim
  | slice s ih =>
    intro t hs ht h
    cases t with
    | num k' =>
      have : (goName (.num k')).head? = some 91 := by rw [← h]; rfl
      exfalso; cases k' <;> (revert this; decide)
    | str =>
      have : (goName .str).head? = some 91 := by rw [← h]; rfl
      exfalso; revert this; decide
    | slice t =>
      simp only [goName] at h
      rw [ih t hs ht (List.append_cancel_left h)]
    | other => exact ht.elim
  | other => intro t hs; exact hs.elim

/-! ### CDL -/

theorem lastParen_none : ∀ s : Bytes, 40 ∉ s → lastParen s = none
  | [], _ => rfl
  | c :: s, h => by
    simp only [List.mem_cons, not_or] at h
    simp [lastParen, lastParen_none s h.2, Ne.symm h.1]

theorem lastParen_some : ∀ a b : Bytes, 40 ∉ b → lastParen (a ++ 40 :: b) = some (a, b)
  | [], b, h => by simp [lastParen, lastParen_none b h]
  | c :: a, b, h => by simp [lastParen, lastParen_some a b h]

theorem replace_none : ∀ b : Bytes, 40 ∉ b → replaceParens b = b
  | [], _ => rfl
  | [c], _ => by simp [replaceParens]
  | c :: d :: b, h => by
    simp only [List.mem_cons, not_or] at h
    have ih := replace_none (d :: b) (by simp [h.2.1, h.2.2])
    rw [replaceParens.eq_2, ih]
    intro s h1 h2
    simp at h2
    exact h.2.1 h2.1.symm

theorem replace_pre : ∀ a b : Bytes, 41 ∉ a → replaceParens (a ++ b) = a ++ replaceParens b
  | [], _, _ => rfl
  | c :: a, b, h => by
    simp only [List.mem_cons, not_or] at h
    rw [List.cons_append, replaceParens.eq_2, replace_pre a b h.2]
    · rfl
    · intro s h1 _
      exact h.1 h1.symm

theorem decDigits_mem (n : Nat) : ∀ c ∈ decDigits n, c ≠ 40 ∧ c ≠ 41 := by
  induction n using decDigits.induct with
  | case1 n h =>
    intro c hc
    rw [decDigits, if_pos h] at hc
    have : n = 0 ∨ n = 1 ∨ n = 2 ∨ n = 3 ∨ n = 4 ∨ n = 5 ∨ n = 6 ∨ n = 7 ∨ n = 8 ∨ n = 9 := by
      omega
    simp only [List.mem_singleton] at hc
    subst hc
    rcases this with h | h | h | h | h | h | h | h | h | h <;> subst h <;> decide
  | case2 n h ih =>
    intro c hc
    rw [decDigits, if_neg h] at hc
    rcases List.mem_append.1 hc with hc | hc
    · exact ih c hc
    · have : n % 10 = 0 ∨ n % 10 = 1 ∨ n % 10 = 2 ∨ n % 10 = 3 ∨ n % 10 = 4 ∨ n % 10 = 5 ∨
          n % 10 = 6 ∨ n % 10 = 7 ∨ n % 10 = 8 ∨ n % 10 = 9 := by omega
      simp only [List.mem_singleton] at hc
      subst hc
      rcases this with h | h | h | h | h | h | h | h | h | h <;> rw [h] <;> decide

theorem cdlBase_mem (base : GoTy) : 40 ∉ ascii (cdlBase base) ∧ 41 ∉ ascii (cdlBase base) := by
  cases base with
  | num k => cases k <;> decide
  | str => decide
  | slice => exact ⟨by simp [cdlBase, ascii], by simp [cdlBase, ascii]⟩
  | other => exact ⟨by simp [cdlBase, ascii], by simp [cdlBase, ascii]⟩

/-- The text between the parentheses has no parenthesis and is not empty. -/
theorem commaSep_mem : ∀ ws : List Bytes, (∀ w ∈ ws, 40 ∉ w) → 40 ∉ commaSep ws
  | [], _ => by simp [commaSep]
  | [w], h => h w (by simp)
  | w :: w' :: ws, h => by
    have h1 := commaSep_mem (w' :: ws) (fun x hx => h x (by simp at hx ⊢; right; exact hx))
    simp only [commaSep, List.mem_append, not_or]
    exact ⟨⟨h w (by simp), by decide⟩, h1⟩

theorem cdlDims_mem : ∀ ds : List Nat, ∀ w ∈ cdlDims ds, (40 : UInt8) ∉ w
  | [], w, h => by simp [cdlDims] at h
  | 0 :: ds, w, h => by
    simp only [cdlDims, List.mem_cons, List.mem_map] at h
    rcases h with h | ⟨_, _, h⟩ <;> (subst h; decide)
  | (d + 1) :: ds, w, h => by
    simp only [cdlDims, List.mem_cons] at h
    rcases h with h | h
    · subst h; intro hc; exact (decDigits_mem _ _ hc).1 rfl
    · exact cdlDims_mem ds w h

theorem putDim_name (base : GoTy) (w : Bytes) (ws : List Bytes) (d : Nat) (hw : ∀ x ∈ w :: ws, 40 ∉ x) :
    putDim (ascii (cdlBase base) ++ ascii "(" ++ commaSep (w :: ws) ++ ascii ")") d =
      ascii (cdlBase base) ++ ascii "(" ++
        commaSep ((if d = 0 then ascii "*" else decDigits d) :: w :: ws) ++ ascii ")" := by
  have h40 : ascii "(" = [40] := by decide
  have h41 : ascii ")" = [41] := by decide
  have hm := commaSep_mem (w :: ws) hw
  have e : ascii (cdlBase base) ++ ascii "(" ++ commaSep (w :: ws) ++ ascii ")" =
      ascii (cdlBase base) ++ 40 :: (commaSep (w :: ws) ++ [41]) := by simp [h40, h41]
  have hl := lastParen_some (ascii (cdlBase base)) (commaSep (w :: ws) ++ [41])
    (by simp only [List.mem_append, not_or]; exact ⟨hm, by decide⟩)
  obtain ⟨c, r, hr⟩ : ∃ c r, commaSep (w :: ws) ++ [41] = c :: r := by
    cases h : commaSep (w :: ws) ++ [41] with
    | nil => simp at h
    | cons c r => exact ⟨c, r, rfl⟩
  unfold putDim
  rw [e, hl, hr]
  simp only [commaSep, h40, h41]
  rw [List.append_assoc _ _ [41], List.append_assoc _ _ [41], hr]
  simp

theorem putDim_base (base : GoTy) (d : Nat) : putDim (ascii (cdlBase base)) d =
    ascii (cdlBase base) ++ ascii "(" ++ (if d = 0 then ascii "*" else decDigits d) ++ ascii ")" := by
  unfold putDim
  rw [lastParen_none _ (cdlBase_mem base).1]

theorem cdlDims_head (d : Nat) (ds : List Nat) :
    ∃ w ws, cdlDims (d :: ds) = w :: ws := by
  cases d with
  | zero => exact ⟨_, _, rfl⟩
  | succ d => exact ⟨_, _, rfl⟩

theorem pTypeZero_eq (o : Bool → Bytes) (base : GoTy) (hb : (∃ k, base = .num k) ∨ base = .str) :
    ∀ ds : List Nat, pTypeZero o (tyNest base ds) = cdlName base (ds.map fun _ => 0)
  | [] => by
    rcases hb with ⟨k, rfl⟩ | rfl
    · cases k <;> rfl
    · rfl
  | [_] => by
    have h := pTypeZero_eq o base hb []
    simp only [tyNest, pTypeZero] at h ⊢
    rw [h]
    simp only [List.map_nil, cdlName]
    rw [putDim_base]
    simp [cdlDims, commaSep]
  | _ :: d :: ds => by
    have h := pTypeZero_eq o base hb (d :: ds)
    simp only [tyNest, pTypeZero] at h ⊢
    rw [h]
    obtain ⟨w, ws, hc⟩ := cdlDims_head 0 (ds.map fun _ => 0)
    simp only [List.map_cons, cdlName, hc]
    rw [putDim_name base w ws 0 (by rw [← hc]; exact cdlDims_mem _)]
    simp only [cdlDims, List.map_cons, List.map_map] at hc ⊢
    have : ((fun _ => ascii "*") ∘ fun (_ : Nat) => 0) = fun (_ : Nat) => ascii "*" := rfl
    rw [← (List.cons.inj hc).1, ← (List.cons.inj hc).2]
    rfl

theorem cdlDims_zero (ds : List Nat) : cdlDims (0 :: ds) = cdlDims (0 :: ds.map fun _ => 0) := by
  simp [cdlDims]

theorem pType_eq (o : Bool → Bytes) (base : GoTy) (hb : (∃ k, base = .num k) ∨ base = .str)
    (leaf : GoVal → Prop) (hleaf : ∀ v, leaf v → v.ty = base) :
    ∀ (ds : List Nat) (v : GoVal), Rect base leaf ds v → pType o v = cdlName base ds
  | [], v, h => by
    have := hleaf v h
    cases v with
    | num k b =>
      simp only [GoVal.ty] at this
      subst this
      cases k <;> rfl
    | str s => simp only [GoVal.ty] at this; subst this; rfl
    | slice e xs => simp only [GoVal.ty] at this; rcases hb with ⟨k, rfl⟩ | rfl <;> cases this
    | other b => simp only [GoVal.ty] at this; rcases hb with ⟨k, rfl⟩ | rfl <;> cases this
    | user u => simp only [GoVal.ty] at this; rcases hb with ⟨k, rfl⟩ | rfl <;> cases this
  | 0 :: ds, v, h => by
    obtain ⟨xs, rfl, hl, -⟩ := h
    cases xs with
    | cons => simp at hl
    | nil =>
      have h0 := pTypeZero_eq o base hb (0 :: ds)
      simp only [pType]
      simp only [tyNest, pTypeZero] at h0
      rw [h0]
      simp only [List.map_cons, cdlName]
      rw [cdlDims_zero ds]
  | (n + 1) :: ds, v, h => by
    obtain ⟨xs, rfl, hl, hx⟩ := h
    cases xs with
    | nil => simp at hl
    | cons x xs =>
      have ih := pType_eq o base hb leaf hleaf ds x (hx x (by simp))
      simp only [List.length_cons] at hl
      simp only [pType, ih, hl]
      cases ds with
      | nil =>
        simp only [cdlName]
        rw [putDim_base]
        simp [cdlDims, commaSep]
      | cons d ds =>
        obtain ⟨w, ws, hc⟩ := cdlDims_head d ds
        simp only [cdlName, cdlDims, hc]
        rw [putDim_name base w ws (n + 1) (by rw [← hc]; exact cdlDims_mem _)]
        rfl

theorem replace_name (base : GoTy) (ds : List Nat) :
    replaceParens (cdlName base ds) = cdlName base ds := by
  have hb := cdlBase_mem base
  cases ds with
  | nil => exact replace_none _ hb.1
  | cons d ds =>
    have hm := commaSep_mem (cdlDims (d :: ds)) (cdlDims_mem _)
    simp only [cdlName]
    rw [List.append_assoc, List.append_assoc, replace_pre _ _ hb.2, replace_pre _ _ (by decide),
      replace_none]
    simp only [List.mem_append, not_or]
    exact ⟨hm, by decide⟩

end Verif
