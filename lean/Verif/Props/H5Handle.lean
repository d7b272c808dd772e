import Verif.Lemmas.H5Handle
/-!
C40: groups of one file do not disturb each other, and the file is closed with the last of them.
-/
namespace Verif.H5

/-- C40: whatever the readers of a file do at the same time, and in whatever order their accesses to
the file happen, each of them gets from its calls what it would have got alone. -/
theorem C40_isolation (file : Bytes) (progs : Nat → List FileOp) (w : World)
    (h : Reaches file (fun _ _ => True) (World.start progs) w) (t : Nat) :
    (w.rd t).done ++ (w.rd t).todo = progs t ∧
    ∃ pos, Alone file (w.rd t).done (w.rd t).out pos ∧ ((w.rd t).pc = .idle → (w.rd t).pos = pos) := by
  have hr := reaches_ok h t
  refine ⟨hr.prog, ?_⟩
  have ha := hr.at_
  split at ha <;> rename_i hpc
  · exact ⟨_, ha, fun _ => rfl⟩
  · exact ⟨_, ha.2.2, fun _ => rfl⟩
  · exact ⟨_, ha.2.2, fun h => by rw [hpc] at h; cases h⟩
  · exact ⟨_, ha.2.2.2, fun _ => rfl⟩
  · exact ⟨_, ha.2.2.2, fun h => by rw [hpc] at h; cases h⟩
  · obtain ⟨-, n, -, hal, -⟩ := ha
    exact ⟨_, hal, fun _ => rfl⟩
  · obtain ⟨-, n, -, hal, -⟩ := ha
    exact ⟨_, hal, fun h => by rw [hpc] at h; cases h⟩
  · exact ⟨_, ha.2, fun _ => rfl⟩
  · exact ⟨_, ha.2.2, fun _ => rfl⟩
  · exact ⟨_, ha.2.2, fun _ => rfl⟩
  · obtain ⟨p, hp⟩ := ha
    exact ⟨p, hp, fun h => by rw [hpc] at h; cases h⟩

/-- C40: no schedule makes the readers wait for each other for ever: as long as one of them has
something left to do and has not panicked, a step can be made. -/
theorem C40_no_deadlock (file : Bytes) (progs : Nat → List FileOp) (w : World)
    (h : Reaches file (fun _ _ => True) (World.start progs) w) (t : Nat)
    (htodo : (w.rd t).todo ≠ []) (hpc : (w.rd t).pc ≠ .crashed) : ∃ u k w', step file w u k = some w' := by
  -- a reader inside a call can go on
  have inside : ∀ u, (w.rd u).pc ≠ .idle → (w.rd u).pc ≠ .crashed → ∃ u k w', step file w u k = some w' := by
    intro u h1 h2
    refine ⟨u, 0, ?_⟩
    cases hu : (w.rd u).pc with
    | idle => exact absurd hu h1
    | crashed => exact absurd hu h2
    | locked n save =>
      by_cases hf : w.sh.hasFile = true
      · simp [step, hu, hf]
      · simp [step, hu, hf]
    | seeked n save => simp [step, hu]
    | gotBytes b save => simp [step, hu]
    | counted c => simp [step, hu]
    | closing => simp [step, hu]
    | closed => simp [step, hu]
  by_cases hidle : (w.rd t).pc = .idle
  · cases hl : w.sh.lock with
    | none =>
      refine ⟨t, 0, ?_⟩
      cases ht : (w.rd t).todo with
      | nil => exact absurd ht htodo
      | cons op ops => cases op <;> simp [step, hidle, ht, hl]
    | some u =>
      have hh := lock_holder h hl
      exact inside u (fun hc => by rw [hc] at hh; cases hh) (fun hc => by rw [hc] at hh; cases hh)
  · exact inside t hidle hpc

/-- C40, when no other reader opens or closes a group while one opens a group, and `GetGroup` and
`Close` are called on open groups: the file stays open as long as a group is open, and is closed
exactly once with the last one.

Without the first condition it is not true: `C40_negation`. -/
theorem C40_closed_with_the_last_group_partial (file : Bytes) (progs : Nat → List FileOp) (w : World)
    (h : Reaches file (fun w t => OpenOnly w t ∧ Undisturbed w t) (World.start progs) w) :
    (w.sh.hasFile = true ↔ 0 < w.sh.live) ∧ w.sh.closes = if w.sh.live = 0 then 1 else 0 := by
  have hc := reaches_count h
  refine ⟨?_, hc.closes⟩
  rw [hc.file]
  exact decide_eq_true_iff

/-- With the same conditions no call panics as long as a group is open. -/
theorem C40_no_crash_partial (file : Bytes) (progs : Nat → List FileOp) (w w' : World)
    (h : Reaches file (fun w t => OpenOnly w t ∧ Undisturbed w t) (World.start progs) w) (hlive : 0 < w.sh.live)
    (t k : Nat) (hs : step file w t k = some w') (hpc : (w.rd t).pc ≠ .crashed) : (w'.rd t).pc ≠ .crashed := by
  have hf := (C40_closed_with_the_last_group_partial file progs w h).1.mpr hlive
  have hr := (reaches_ok h t).at_
  intro hbad
  simp only [step] at hs
  cases hp : (w.rd t).pc <;> simp only [hp] at hs hr
  case crashed => exact hpc hp
  case idle =>
    cases htodo : (w.rd t).todo with
    | nil => simp [htodo] at hs
    | cons op ops =>
      simp only [htodo] at hs
      cases op <;> simp only at hs <;> (try split at hs) <;> cases hs <;> simp [World.set] at hbad
  case locked n save =>
    rw [if_pos hf] at hs
    cases hs
    simp [World.set] at hbad
  case seeked n save =>
    split at hs <;> cases hs
    simp [World.set] at hbad
  case gotBytes b save =>
    cases hs
    simp only [World.set, Reader.finish] at hbad
    cases htodo : (w.rd t).todo <;> simp [htodo] at hbad
  case counted c =>
    cases hs
    simp only [World.set, Reader.finish] at hbad
    cases htodo : (w.rd t).todo <;> simp [htodo, hp] at hbad
  case closing =>
    cases hs
    simp [World.set] at hbad
  case closed =>
    cases hs
    simp only [World.set, Reader.finish] at hbad
    cases htodo : (w.rd t).todo <;> simp [htodo, hp] at hbad

/-! ### Examples -/

/-- `OpenOnly` for a program. -/
def openOnly (w : World) (t : Nat) : Bool :=
  !((w.rd t).pc = .idle ∧ ((w.rd t).todo.head? = some .dup ∨ (w.rd t).todo.head? = some .close)) || 0 < w.sh.live

/-- `Undisturbed` for a program, when the other readers are below `n`. -/
def undisturbed (n : Nat) (w : World) (t : Nat) : Bool :=
  (List.range n).all fun u => u = t ||
    match (w.rd u).pc with
    | .counted _ => (w.rd t).pc ≠ .closing &&
        (match (w.rd t).pc with
          | .counted _ => false
          | _ => true) && !((w.rd t).pc = .idle ∧ (w.rd t).todo.head? = some .dup)
    | _ => true

/-- The steps of a schedule. -/
def runSteps (file : Bytes) (ok : World → Nat → Bool) : World → List (Nat × Nat) → Option World
  | w, [] => some w
  | w, (t, k) :: rest => if ok w t then (step file w t k).bind fun w => runSteps file ok w rest else none

theorem runSteps_reaches {file : Bytes} {ok : World → Nat → Bool} {allow : World → Nat → Prop} {w0 : World}
    (hok : ∀ w t, Reaches file allow w0 w → ok w t = true → allow w t) {sched : List (Nat × Nat)} :
    ∀ {w w' : World}, Reaches file allow w0 w → runSteps file ok w sched = some w' → Reaches file allow w0 w' := by
  induction sched with
  | nil => intro w w' h hr; cases hr; exact h
  | cons s rest ih =>
    intro w w' h hr
    simp only [runSteps] at hr
    split at hr
    · rename_i hs
      cases hst : step file w s.1 s.2 with
      | none => rw [hst] at hr; cases hr
      | some w1 =>
        rw [hst] at hr
        exact ih (.step w w1 s.1 s.2 h (hok w s.1 h hs) hst) hr
    · cases hr

theorem openOnly_ok {w : World} {t : Nat} (h : openOnly w t = true) : OpenOnly w t := by
  intro h1 h2
  simp only [openOnly, Bool.or_eq_true, Bool.not_eq_true', decide_eq_false_iff_not, decide_eq_true_eq] at h
  rcases h with h | h
  · exact absurd ⟨h1, h2⟩ h
  · exact h

/-- Two readers, with two calls each. -/
def twoReaders : Nat → List FileOp
  | 0 => [.read 2, .read 3, .close]
  | 1 => [.dup, .readAt 2 4, .read 2, .close]
  | _ => []

/-- Their steps, mixed; the second read of the first gets two bytes only. -/
def mixed : List (Nat × Nat) :=
  [(1, 0), (0, 0), (0, 0), (1, 0), (0, 2), (0, 0), (1, 0), (1, 0), (1, 2), (1, 0), (0, 0), (0, 0), (0, 2), (0, 0), (1, 0),
    (1, 0), (1, 2), (1, 0), (0, 0), (0, 0), (0, 0)]

/-- What they got. -/
def mixedEnd : Option World := runSteps [10, 11, 12, 13, 14, 15] (fun w t => openOnly w t && undisturbed 2 w t)
  (World.start twoReaders) mixed

example : mixedEnd.map (fun w => ((w.rd 0).out, (w.rd 1).out, (w.rd 0).todo, w.sh)) =
    some ([[10, 11], [12, 13]], [[14, 15], [10, 11]], [], { cursor := 2, refCount := 1 }) := by decide +kernel

/-- The schedule is one of those of `C40_isolation`. -/
example : ∃ w, Reaches [10, 11, 12, 13, 14, 15] (fun _ _ => True) (World.start twoReaders) w ∧
    (w.rd 1).out = [[14, 15], [10, 11]] := by
  obtain ⟨w, hw⟩ : ∃ w, mixedEnd = some w := Option.isSome_iff_exists.mp (by decide +kernel)
  have h1 : mixedEnd.map (fun w => (w.rd 1).out) = some [[14, 15], [10, 11]] := by decide +kernel
  rw [hw] at h1
  exact ⟨w, runSteps_reaches (fun _ _ _ _ => trivial) .refl hw, Option.some.inj h1⟩

/-- Readers without calls stay so. -/
theorem twoReaders_idle {allow : World → Nat → Prop} {w : World}
    (h : Reaches [10, 11, 12, 13, 14, 15] allow (World.start twoReaders) w) (u : Nat) (hu : 2 ≤ u) (c : Int) :
    (w.rd u).pc ≠ .counted c := by
  have hr := reaches_ok h u
  intro hc
  have ha := hr.at_
  simp only [hc] at ha
  have hp := hr.prog
  obtain ⟨ops, ho, -⟩ := finish_done (out := []) ha.1
  rw [ho] at hp
  match u, hu with
  | u + 2, _ => simp [twoReaders] at hp

/-- The schedule is also one of those of `C40_closed_with_the_last_group_partial`. -/
example : ∃ w, Reaches [10, 11, 12, 13, 14, 15] (fun w t => OpenOnly w t ∧ Undisturbed w t) (World.start twoReaders) w ∧
    w.sh.live = 1 ∧ w.sh.hasFile = true := by
  obtain ⟨w, hw⟩ : ∃ w, mixedEnd = some w := Option.isSome_iff_exists.mp (by decide +kernel)
  have h1 : mixedEnd.map (fun w => (w.sh.live, w.sh.hasFile)) = some (1, true) := by decide +kernel
  rw [hw] at h1
  have h2 := Option.some.inj h1
  simp only [Prod.mk.injEq] at h2
  refine ⟨w, runSteps_reaches (fun w t hr hok => ?_) .refl hw, h2⟩
  simp only [Bool.and_eq_true] at hok
  refine ⟨openOnly_ok hok.1, ?_⟩
  intro u c hne hc
  by_cases hu : 2 ≤ u
  · exact absurd hc (twoReaders_idle hr u hu c)
  · have h3 := List.all_eq_true.mp hok.2 u (List.mem_range.mpr (by omega))
    simp only [hc, Bool.or_eq_true, decide_eq_true_eq, hne, false_or, Bool.and_eq_true, Bool.not_eq_true',
      decide_eq_false_iff_not] at h3
    refine ⟨h3.1.1, ?_, h3.2⟩
    intro d hd
    have := h3.1.2
    simp [hd] at this

/-- Two goroutines that each open a group and close it. -/
def twoOpeners : Nat → List FileOp
  | 0 => [.dup, .close]
  | 1 => [.dup, .close]
  | _ => []

/-- C40 as stated is not true: when two `GetGroup` calls happen at the same time one of the
references may not be counted (readers.go:262), and the file is then closed under the group that is
still open. -/
theorem C40_negation : ∃ w, Reaches [] OpenOnly (World.start twoOpeners) w ∧ 0 < w.sh.live ∧ w.sh.hasFile = false := by
  let sched : List (Nat × Nat) := [(0, 0), (1, 0), (0, 0), (1, 0), (0, 0), (0, 0), (0, 0), (1, 0), (1, 0), (1, 0)]
  obtain ⟨w, hw⟩ : ∃ w, runSteps [] openOnly (World.start twoOpeners) sched = some w :=
    Option.isSome_iff_exists.mp (by decide +kernel)
  have h1 : (runSteps [] openOnly (World.start twoOpeners) sched).map (fun w => (w.sh.live, w.sh.hasFile)) =
      some (1, false) := by decide +kernel
  rw [hw] at h1
  have h2 := Option.some.inj h1
  simp only [Prod.mk.injEq] at h2
  exact ⟨w, runSteps_reaches (fun w t _ hok => openOnly_ok hok) .refl hw, by omega, h2.2⟩

end Verif.H5
