import Verif.Model.Dispatch
import Verif.Model.CdfHandle
import Verif.Lemmas.OrderedMap
/-!
C18 (file kind dispatch) and C19 (shared CDF file handle).
-/
namespace Verif

/-- **C18.** For every file contents: the CDF reader is used exactly for files whose first byte is
`C`, the HDF5 reader exactly for files whose first byte is 0x89, anything else (also the empty
file) is refused with `ErrUnknown`, and there is no other outcome. -/
theorem C18_dispatch (file : Bytes) :
    (dispatch file = .ok .cdf ↔ file.head? = some 67) ∧
    (dispatch file = .ok .hdf5 ↔ file.head? = some 0x89) ∧
    (dispatch file = .err .unknownKind ↔ file.head? ≠ some 67 ∧ file.head? ≠ some 0x89) := by
  cases file with
  | nil => simp [dispatch, getKind]
  | cons b bs =>
    simp only [dispatch, getKind, List.head?_cons, Option.some.injEq]
    by_cases h1 : b = 67
    · subst h1; simp
    · by_cases h2 : b = 0x89
      · subst h2; simp
      · simp [h1, h2]

example : dispatch [67, 68, 70, 1] = .ok .cdf := by decide
example : dispatch [0x89, 72] = .ok .hdf5 := by decide

/-- **C18 (writer side).** `OpenWriter` accepts exactly the two kinds. -/
theorem C18_writer (k : FileKind) :
    dispatchWriter k = .ok .cdf ∧ k = .cdf ∨ dispatchWriter k = .ok .hdf5 ∧ k = .hdf5 ∨
    (∃ n, k = .unknown n) ∧ dispatchWriter k = .err .unknownKind := by
  cases k <;> simp [dispatchWriter]

/-! ### C19 -/

/-- The calls users make on the groups of one CDF file. -/
inductive HandleOp
  | getGroup (name : Bytes)
  | close
deriving DecidableEq

/-- Specification: how many groups are open after a history, `none` if some call in it is made
after every group has been closed. Opening with a name other than "" or "/" gives no group. -/
def specOpen : Nat → List HandleOp → Option Nat
  | n, [] => some n
  | 0, _ :: _ => none
  | n + 1, .close :: ops => specOpen n ops
  | n + 1, .getGroup g :: ops => specOpen (if g = [] ∨ g = [47] then n + 2 else n + 1) ops

/-- One call on the model; a failed call leaves the state as it was. -/
def handleStep (h : Res CdfHandle) (op : HandleOp) : Res CdfHandle :=
  match h with
  | .ok s =>
    match op with
    | .close => s.close
    | .getGroup g =>
      match s.getGroup g with
      | .err _ => .ok s
      | r => r
  | r => r

/-- **C19.** After every history of `GetGroup`/`Close` calls that are made on open groups, the
underlying file is open while some group is open and has been closed exactly once when none is. -/
theorem C19_closed_exactly_once (ops : List HandleOp) (n : Nat)
    (h : specOpen 1 ops = some n) :
    ∃ s, ops.foldl handleStep (.ok CdfHandle.opened) = .ok s ∧ s.refCount = n ∧
      s.closes = (if n = 0 then 1 else 0) ∧ s.hasFile = decide (0 < n) := by
  have gen : ∀ (ops : List HandleOp) (m : Nat), specOpen m ops = some n →
      ∃ s, ops.foldl handleStep
          (.ok ⟨m, decide (0 < m), if m = 0 then 1 else 0⟩) = .ok s ∧ s.refCount = n ∧
        s.closes = (if n = 0 then 1 else 0) ∧ s.hasFile = decide (0 < n) := by
    intro ops
    induction ops with
    | nil =>
      intro m hm
      simp only [specOpen, Option.some.injEq] at hm
      subst hm
      exact ⟨_, rfl, rfl, rfl, rfl⟩
    | cons op ops ih =>
      intro m hm
      cases m with
      | zero => simp [specOpen] at hm
      | succ m =>
        cases op with
        | close =>
          simp only [specOpen] at hm
          obtain ⟨s, hs⟩ := ih m hm
          refine ⟨s, ?_, hs.2⟩
          rw [← hs.1]
          simp only [List.foldl_cons]
          congr 1
          simp only [handleStep, CdfHandle.close]
          cases m <;> simp
        | getGroup g =>
          simp only [specOpen] at hm
          obtain ⟨s, hs⟩ := ih _ hm
          refine ⟨s, ?_, hs.2⟩
          rw [← hs.1]
          simp only [List.foldl_cons]
          congr 1
          simp only [handleStep, CdfHandle.getGroup]
          by_cases hg : g = [] ∨ g = [47]
          · have : ¬ (g ≠ [] ∧ g ≠ [47]) := by
              rintro ⟨a, b⟩
              rcases hg with h | h <;> contradiction
            simp only [this, if_false, hg, if_true]
            simp
          · have : g ≠ [] ∧ g ≠ [47] := by
              constructor <;> intro e <;> exact hg (by simp [e])
            simp [this, hg]
  exact gen ops 1 h

example : specOpen 1 [.getGroup [47], .close, .getGroup [97], .getGroup [], .close, .close]
    = some 0 := by decide

/-- Outside the histories of C19: a group obtained from a closed group and closed again makes the
process panic on the nil file. -/
theorem C19_use_after_close_panics :
    [HandleOp.close, .getGroup [], .close].foldl handleStep (.ok CdfHandle.opened) = .panic := by
  decide

end Verif
