import Verif.Spec.H5Handle
/-!
Invariants of readers that share a file.
-/
namespace Verif.H5

/-- The invariant of reader `t`. -/
structure ReaderOK (file : Bytes) (prog : List FileOp) (sh : Shared) (t : Nat) (r : Reader) : Prop where
  prog : r.done ++ r.todo = prog
  at_ : match r.pc with
    | .idle => Alone file r.done r.out r.pos
    | .locked n none => sh.lock = some t ∧ r.todo.head? = some (.read n) ∧ Alone file r.done r.out r.pos
    | .locked n (some p) => sh.lock = some t ∧ r.todo.head? = some (.readAt n r.pos) ∧ Alone file r.done r.out p
    | .seeked n none => sh.lock = some t ∧ sh.cursor = r.pos ∧ r.todo.head? = some (.read n) ∧ Alone file r.done r.out r.pos
    | .seeked n (some p) =>
      sh.lock = some t ∧ sh.cursor = r.pos ∧ r.todo.head? = some (.readAt n r.pos) ∧ Alone file r.done r.out p
    | .gotBytes b none => sh.lock = some t ∧ ∃ n, r.todo.head? = some (.read n) ∧ Alone file r.done r.out r.pos ∧
        ∃ k, k ≤ n ∧ k ≤ file.length - r.pos ∧ b = (file.drop r.pos).take k
    | .gotBytes b (some p) => sh.lock = some t ∧ ∃ n, r.todo.head? = some (.readAt n r.pos) ∧ Alone file r.done r.out p ∧
        ∃ k, k ≤ n ∧ k ≤ file.length - r.pos ∧ b = (file.drop r.pos).take k
    | .counted _ => r.todo.head? = some .dup ∧ Alone file r.done r.out r.pos
    | .closing => sh.lock = some t ∧ r.todo.head? = some .close ∧ Alone file r.done r.out r.pos
    | .closed => sh.lock = some t ∧ r.todo.head? = some .close ∧ Alone file r.done r.out r.pos
    | .crashed => ∃ p, Alone file r.done r.out p

/-- A reader that does not have the lock does not depend on the shared state. -/
theorem ReaderOK.other {file : Bytes} {prog : List FileOp} {sh sh' : Shared} {t : Nat} {r : Reader}
    (h : ReaderOK file prog sh t r) (hl : sh.lock ≠ some t ∨ (sh'.lock = sh.lock ∧ sh'.cursor = sh.cursor)) :
    ReaderOK file prog sh' t r := by
  refine ⟨h.prog, ?_⟩
  have ha := h.at_
  rcases hl with hl | ⟨h1, h2⟩
  · split <;> rename_i hpc <;> simp only [hpc] at ha <;> first | exact ha | exact absurd ha.1 hl
  · split <;> rename_i hpc <;> simp only [hpc] at ha <;> first | exact ha | (simp only [h1, h2]; exact ha) | (simp only [h1]; exact ha)

theorem finish_done {r : Reader} {op : FileOp} {out : List Bytes} (h : r.todo.head? = some op) :
    ∃ ops, r.todo = op :: ops ∧
      r.finish out = { r with done := r.done ++ [op], todo := ops, pc := .idle, out := r.out ++ out } := by
  cases ht : r.todo with
  | nil => rw [ht] at h; cases h
  | cons o ops =>
    rw [ht] at h
    have : o = op := by simpa using h
    subst this
    exact ⟨ops, rfl, by simp [Reader.finish, ht]⟩

/-- The invariant is kept by every step. -/
theorem step_ok {file : Bytes} {progs : Nat → List FileOp} {w w' : World} {t k : Nat}
    (h : ∀ u, ReaderOK file (progs u) w.sh u (w.rd u)) (hs : step file w t k = some w') :
    ∀ u, ReaderOK file (progs u) w'.sh u (w'.rd u) := by
  -- the others keep theirs, when the lock was free or is held by `t`
  have key : ∀ (sh : Shared) (r : Reader), w' = w.set t sh r → ReaderOK file (progs t) sh t r →
      ((w.sh.lock = none ∨ w.sh.lock = some t) ∨ (sh.lock = w.sh.lock ∧ sh.cursor = w.sh.cursor)) →
      ∀ u, ReaderOK file (progs u) w'.sh u (w'.rd u) := by
    intro sh r hw hr hl u
    subst hw
    by_cases hu : u = t
    · subst hu
      simpa [World.set] using hr
    · simp only [World.set, if_neg hu]
      refine (h u).other ?_
      rcases hl with (hl | hl) | hl
      · left; rw [hl]; simp
      · left; rw [hl]; intro he; exact hu (Option.some.inj he).symm
      · exact .inr hl
  have ht := h t
  have hprog := ht.prog
  have ha := ht.at_
  simp only [step] at hs
  cases hpc : (w.rd t).pc with
  | idle =>
    simp only [hpc] at hs ha
    cases htodo : (w.rd t).todo with
    | nil => simp [htodo] at hs
    | cons op ops =>
      simp only [htodo] at hs
      cases op with
      | read n =>
        simp only at hs
        split at hs
        · rename_i hl
          refine key _ _ (Option.some.inj hs).symm ⟨by simpa [htodo] using hprog, ?_⟩ (.inl (.inl hl))
          simp [htodo, ha]
        · cases hs
      | readAt n off =>
        simp only at hs
        split at hs
        · rename_i hl
          refine key _ _ (Option.some.inj hs).symm ⟨by simpa [htodo] using hprog, ?_⟩ (.inl (.inl hl))
          simp [htodo, ha]
        · cases hs
      | dup =>
        refine key _ _ (Option.some.inj hs).symm ⟨by simpa [htodo] using hprog, ?_⟩ (.inr ⟨rfl, rfl⟩)
        simp [htodo, ha]
      | close =>
        simp only at hs
        split at hs
        · rename_i hl
          refine key _ _ (Option.some.inj hs).symm ⟨by simpa [htodo] using hprog, ?_⟩ (.inl (.inl hl))
          simp [htodo, ha]
        · cases hs
  | locked n save =>
    simp only [hpc] at hs ha
    split at hs
    · cases save with
      | none => exact key _ _ (Option.some.inj hs).symm ⟨hprog, by simp [ha]⟩ (.inl (.inr ha.1))
      | some p => exact key _ _ (Option.some.inj hs).symm ⟨hprog, by simp [ha]⟩ (.inl (.inr ha.1))
    · cases save with
      | none => exact key _ _ (Option.some.inj hs).symm ⟨hprog, ⟨_, ha.2.2⟩⟩ (.inl (.inr ha.1))
      | some p => exact key _ _ (Option.some.inj hs).symm ⟨hprog, ⟨_, ha.2.2⟩⟩ (.inl (.inr ha.1))
  | seeked n save =>
    simp only [hpc] at hs ha
    split at hs
    · rename_i hk
      cases save with
      | none =>
        refine key _ _ (Option.some.inj hs).symm ⟨hprog, ?_⟩ (.inl (.inr ha.1))
        refine ⟨ha.1, n, ha.2.2.1, ha.2.2.2, k, hk.1, ?_, ?_⟩
        · rw [← ha.2.1]; exact hk.2
        · rw [ha.2.1]
      | some p =>
        refine key _ _ (Option.some.inj hs).symm ⟨hprog, ?_⟩ (.inl (.inr ha.1))
        refine ⟨ha.1, n, ha.2.2.1, ha.2.2.2, k, hk.1, ?_, ?_⟩
        · rw [← ha.2.1]; exact hk.2
        · rw [ha.2.1]
    · cases hs
  | gotBytes b save =>
    simp only [hpc] at hs ha
    cases save with
    | none =>
      obtain ⟨hl, n, hh, hal, j, hj1, hj2, hb⟩ := ha
      obtain ⟨ops, ho, -⟩ := finish_done (out := [b]) hh
      refine key _ _ (Option.some.inj hs).symm ?_ (.inl (.inr hl))
      simp only [Option.getD_none, Reader.finish, ho]
      refine ⟨by simp [← hprog, ho], ?_⟩
      have hbl : b.length = j := by rw [hb, List.length_take, List.length_drop]; omega
      have := hal.read (w.rd t).done (w.rd t).out (w.rd t).pos n j hj1 hj2
      rw [← hb] at this
      simpa [hbl] using this
    | some p =>
      obtain ⟨hl, n, hh, hal, j, hj1, hj2, hb⟩ := ha
      obtain ⟨ops, ho, -⟩ := finish_done (out := [b]) hh
      refine key _ _ (Option.some.inj hs).symm ?_ (.inl (.inr hl))
      simp only [Option.getD_some, Reader.finish, ho]
      refine ⟨by simp [← hprog, ho], ?_⟩
      have := hal.readAt (w.rd t).done (w.rd t).out p n (w.rd t).pos j hj1 hj2
      rw [← hb] at this
      exact this
  | counted c =>
    simp only [hpc] at hs ha
    obtain ⟨ops, ho, hf⟩ := finish_done (r := w.rd t) (out := []) ha.1
    refine key _ _ (Option.some.inj hs).symm ?_ (.inr ⟨rfl, rfl⟩)
    rw [hf]
    refine ⟨by simp [← hprog, ho], ?_⟩
    simpa using ha.2.dup _ _ _
  | closing =>
    simp only [hpc] at hs ha
    exact key _ _ (Option.some.inj hs).symm ⟨hprog, ha⟩ (.inl (.inr ha.1))
  | closed =>
    simp only [hpc] at hs ha
    obtain ⟨ops, ho, hf⟩ := finish_done (r := w.rd t) (out := []) ha.2.1
    refine key _ _ (Option.some.inj hs).symm ?_ (.inl (.inr ha.1))
    rw [hf]
    refine ⟨by simp [← hprog, ho], ?_⟩
    simpa using ha.2.2.close _ _ _
  | crashed => simp [hpc] at hs

theorem reaches_ok {file : Bytes} {allow : World → Nat → Prop} {progs : Nat → List FileOp} {w : World}
    (h : Reaches file allow (World.start progs) w) : ∀ u, ReaderOK file (progs u) w.sh u (w.rd u) := by
  induction h with
  | refl => intro u; exact ⟨rfl, .nil⟩
  | step w w' t k _ _ hs ih => exact step_ok ih hs

/-- Between `Lock` and `Unlock`. -/
def Pc.holds : Pc → Bool
  | .locked .. | .seeked .. | .gotBytes .. | .closing | .closed => true
  | _ => false

/-- The reader that has the lock is inside a call. -/
theorem lock_holder {file : Bytes} {allow : World → Nat → Prop} {progs : Nat → List FileOp} {w : World}
    (h : Reaches file allow (World.start progs) w) {u : Nat} (hu : w.sh.lock = some u) :
    (w.rd u).pc.holds = true := by
  induction h generalizing u with
  | refl => cases hu
  | step w w' t k hr _ hs ih =>
    have hok := reaches_ok hr
    have ha := (hok t).at_
    -- steps that keep the lock
    have keep : ∀ (sh : Shared) (r : Reader), w' = w.set t sh r → sh.lock = w.sh.lock →
        (r.pc.holds = true ∨ w.sh.lock ≠ some t) → (w'.rd u).pc.holds = true := by
      intro sh r hw hl hr
      subst hw
      simp only [World.set] at hu ⊢
      rw [hl] at hu
      split
      · rename_i he
        subst he
        exact hr.resolve_right (fun h => h hu)
      · exact ih hu
    have take : ∀ (sh : Shared) (r : Reader), w' = w.set t sh r → sh.lock = some t →
        r.pc.holds = true → (w'.rd u).pc.holds = true := by
      intro sh r hw hl hr
      subst hw
      simp only [World.set] at hu ⊢
      rw [hl] at hu
      rw [if_pos (Option.some.inj hu).symm]
      exact hr
    have drop : ∀ (sh : Shared) (r : Reader), w' = w.set t sh r → sh.lock = none →
        (w'.rd u).pc.holds = true := by
      intro sh r hw hl
      subst hw
      simp only [World.set] at hu
      rw [hl] at hu
      cases hu
    simp only [step] at hs
    cases hpc : (w.rd t).pc with
    | idle =>
      simp only [hpc] at hs
      have hnot : w.sh.lock ≠ some t := fun hl => by have := ih hl; rw [hpc] at this; cases this
      · cases htodo : (w.rd t).todo with
        | nil => simp [htodo] at hs
        | cons op ops =>
          simp only [htodo] at hs
          cases op with
          | read n =>
            simp only at hs
            split at hs
            · exact take _ _ (Option.some.inj hs).symm rfl rfl
            · cases hs
          | readAt n off =>
            simp only at hs
            split at hs
            · exact take _ _ (Option.some.inj hs).symm rfl rfl
            · cases hs
          | dup => exact keep _ _ (Option.some.inj hs).symm rfl (.inr hnot)
          | close =>
            simp only at hs
            split at hs
            · exact take _ _ (Option.some.inj hs).symm rfl rfl
            · cases hs
    | locked n save =>
      simp only [hpc] at hs
      split at hs
      · exact keep _ _ (Option.some.inj hs).symm rfl (.inl rfl)
      · exact drop _ _ (Option.some.inj hs).symm rfl
    | seeked n save =>
      simp only [hpc] at hs
      split at hs
      · exact keep _ _ (Option.some.inj hs).symm rfl (.inl rfl)
      · cases hs
    | gotBytes b save =>
      simp only [hpc] at hs
      exact drop _ _ (Option.some.inj hs).symm rfl
    | counted c =>
      simp only [hpc] at hs
      exact keep _ _ (Option.some.inj hs).symm rfl (.inr fun hl => by have := ih hl; rw [hpc] at this; cases this)
    | closing =>
      simp only [hpc] at hs
      exact keep _ _ (Option.some.inj hs).symm rfl (.inl rfl)
    | closed =>
      simp only [hpc] at hs
      exact drop _ _ (Option.some.inj hs).symm rfl
    | crashed => simp [hpc] at hs

/-! ### The reference count -/

/-- The count is right. -/
structure CountOK (w : World) : Prop where
  count : w.sh.refCount = w.sh.live
  file : w.sh.hasFile = decide (0 < w.sh.live)
  closes : w.sh.closes = if w.sh.live = 0 then 1 else 0
  counted : ∀ t c, (w.rd t).pc = .counted c → c = w.sh.refCount ∧ 0 < w.sh.live
  closing : ∀ t, (w.rd t).pc = .closing → 0 < w.sh.live

theorem count_step {file : Bytes} {progs : Nat → List FileOp} {w w' : World} {t k : Nat}
    (hr : ∀ u, ReaderOK file (progs u) w.sh u (w.rd u)) (h : CountOK w) (ho : OpenOnly w t) (hu : Undisturbed w t)
    (hs : step file w t k = some w') : CountOK w' := by
  -- steps that leave the count alone
  have keep : ∀ (sh : Shared) (r : Reader), w' = w.set t sh r → sh.refCount = w.sh.refCount → sh.live = w.sh.live →
      sh.hasFile = w.sh.hasFile → sh.closes = w.sh.closes → (∀ c, r.pc = .counted c → c = w.sh.refCount ∧ 0 < w.sh.live) →
      (r.pc = .closing → 0 < w.sh.live) → CountOK w' := by
    intro sh r hw h1 h2 h3 h4 h5 h6
    subst hw
    refine ⟨by simpa [World.set, h1, h2] using h.count, by simpa [World.set, h3, h2] using h.file,
      by simpa [World.set, h4, h2] using h.closes, ?_, ?_⟩
    · intro u c hc
      simp only [World.set] at hc ⊢
      split at hc
      · rw [h1, h2]; exact h5 c hc
      · rw [h1, h2]; exact h.counted u c hc
    · intro u hc
      simp only [World.set] at hc ⊢
      split at hc
      · rw [h2]; exact h6 hc
      · rw [h2]; exact h.closing u hc
  have fin : ∀ (r : Reader) (out : List Bytes) (op : FileOp), r.todo.head? = some op → (r.finish out).pc = .idle := by
    intro r out op hh
    obtain ⟨_, _, hf⟩ := finish_done (out := out) hh
    rw [hf]
  have ha := (hr t).at_
  simp only [step] at hs
  cases hpc : (w.rd t).pc with
  | idle =>
    simp only [hpc] at hs ha
    cases htodo : (w.rd t).todo with
    | nil => simp [htodo] at hs
    | cons op ops =>
      simp only [htodo] at hs
      cases op with
      | read n =>
        simp only at hs
        split at hs
        · exact keep _ _ (Option.some.inj hs).symm rfl rfl rfl rfl (by simp) (by simp)
        · cases hs
      | readAt n off =>
        simp only at hs
        split at hs
        · exact keep _ _ (Option.some.inj hs).symm rfl rfl rfl rfl (by simp) (by simp)
        · cases hs
      | dup =>
        have hlive := ho hpc (.inl (by rw [htodo]; rfl))
        exact keep _ _ (Option.some.inj hs).symm rfl rfl rfl rfl (by simp [hlive]) (by simp)
      | close =>
        have hlive := ho hpc (.inr (by rw [htodo]; rfl))
        simp only at hs
        split at hs
        · exact keep _ _ (Option.some.inj hs).symm rfl rfl rfl rfl (by simp) (by simp [hlive])
        · cases hs
  | locked n save =>
    simp only [hpc] at hs
    split at hs <;> exact keep _ _ (Option.some.inj hs).symm rfl rfl rfl rfl (by simp) (by simp)
  | seeked n save =>
    simp only [hpc] at hs
    split at hs
    · exact keep _ _ (Option.some.inj hs).symm rfl rfl rfl rfl (by simp) (by simp)
    · cases hs
  | gotBytes b save =>
    simp only [hpc] at hs ha
    have : ∃ op, (w.rd t).todo.head? = some op := by
      cases save with
      | none => obtain ⟨-, n, hh, -⟩ := ha; exact ⟨_, hh⟩
      | some p => obtain ⟨-, n, hh, -⟩ := ha; exact ⟨_, hh⟩
    obtain ⟨op, hop⟩ := this
    refine keep _ _ (Option.some.inj hs).symm rfl rfl rfl rfl ?_ ?_
    · intro c hc; rw [fin _ _ op (by exact hop)] at hc; cases hc
    · intro hc; rw [fin _ _ op (by exact hop)] at hc; cases hc
  | counted c =>
    simp only [hpc] at hs ha
    obtain ⟨hc1, hc2⟩ := h.counted t c hpc
    have hidle := fin (w.rd t) [] _ ha.1
    have hw := (Option.some.inj hs).symm
    subst hw
    have hcount := h.count
    have hfile := h.file
    have hcl := h.closes
    rw [if_neg (by omega)] at hcl
    refine ⟨?_, ?_, ?_, ?_, ?_⟩
    · simp only [World.set]; omega
    · simp only [World.set, hfile]
      rw [decide_eq_true hc2, decide_eq_true (by omega)]
    · simp only [World.set, hcl]
      rw [if_neg (by omega)]
    · intro u d hd
      simp only [World.set] at hd
      split at hd
      · rw [hidle] at hd; cases hd
      · rename_i hne
        exact absurd hpc ((hu u d hne hd).2.1 c)
    · intro u hd
      simp only [World.set]
      omega
  | closing =>
    simp only [hpc] at hs ha
    have hlive := h.closing t hpc
    have hw := (Option.some.inj hs).symm
    subst hw
    have hcount := h.count
    have hfile := h.file
    have hcl := h.closes
    rw [if_neg (by omega)] at hcl
    rw [decide_eq_true hlive] at hfile
    refine ⟨?_, ?_, ?_, ?_, ?_⟩
    · simp only [World.set]; omega
    · simp only [World.set, hfile]
      by_cases h1 : w.sh.refCount - 1 = 0
      · rw [if_pos h1, decide_eq_false (by omega)]
      · rw [if_neg h1, decide_eq_true (by omega)]
    · simp only [World.set, hcl]
      by_cases h1 : w.sh.refCount - 1 = 0
      · rw [if_pos h1, if_pos (by omega)]
      · rw [if_neg h1, if_neg (by omega)]
    · intro u d hd
      simp only [World.set] at hd
      split at hd
      · cases hd
      · rename_i hne
        exact absurd hpc (hu u d hne hd).1
    · intro u hd
      simp only [World.set] at hd
      split at hd
      · cases hd
      · rename_i hne
        have hau := (hr u).at_
        simp only [hd] at hau
        rw [ha.1] at hau
        exact absurd (Option.some.inj hau.1).symm hne
  | closed =>
    simp only [hpc] at hs ha
    have hidle := fin (w.rd t) [] _ ha.2.1
    refine keep _ _ (Option.some.inj hs).symm rfl rfl rfl rfl ?_ ?_
    · intro c hc; rw [hidle] at hc; cases hc
    · intro hc; rw [hidle] at hc; cases hc
  | crashed => simp [hpc] at hs

theorem reaches_count {file : Bytes} {progs : Nat → List FileOp} {w : World}
    (h : Reaches file (fun w t => OpenOnly w t ∧ Undisturbed w t) (World.start progs) w) : CountOK w := by
  induction h with
  | refl => exact ⟨rfl, rfl, rfl, (fun t c h => nomatch h), (fun t h => nomatch h)⟩
  | step w w' t k hr hal hs ih => exact count_step (reaches_ok hr) ih hal.1 hal.2 hs

end Verif.H5
