import Verif.Model.H5Handle
/-!
What a reader sees that has the file for itself, and which schedules are considered.
-/
namespace Verif.H5

/-- A reader that has the file for itself has made the calls `ops`, which gave the bytes `out`, and
is at position `pos`. The file may give fewer bytes than asked for. -/
inductive Alone (file : Bytes) : List FileOp → List Bytes → Nat → Prop
  | nil : Alone file [] [] 0
  | read (ops : List FileOp) (out : List Bytes) (pos n k : Nat) : Alone file ops out pos → k ≤ n → k ≤ file.length - pos →
      Alone file (ops ++ [.read n]) (out ++ [(file.drop pos).take k]) (pos + k)
  | readAt (ops : List FileOp) (out : List Bytes) (pos n offset k : Nat) : Alone file ops out pos → k ≤ n →
      k ≤ file.length - offset → Alone file (ops ++ [.readAt n offset]) (out ++ [(file.drop offset).take k]) pos
  | dup (ops : List FileOp) (out : List Bytes) (pos : Nat) : Alone file ops out pos → Alone file (ops ++ [.dup]) out pos
  | close (ops : List FileOp) (out : List Bytes) (pos : Nat) : Alone file ops out pos → Alone file (ops ++ [.close]) out pos

/-- `GetGroup` and `Close` are called only while a group is open. -/
def OpenOnly (w : World) (t : Nat) : Prop :=
  (w.rd t).pc = .idle → ((w.rd t).todo.head? = some .dup ∨ (w.rd t).todo.head? = some .close) → 0 < w.sh.live

/-- No other reader uses the reference count while one is in `GetGroup`. -/
def Undisturbed (w : World) (t : Nat) : Prop :=
  ∀ u c, u ≠ t → (w.rd u).pc = .counted c →
    (w.rd t).pc ≠ .closing ∧ (∀ c, (w.rd t).pc ≠ .counted c) ∧ ¬ ((w.rd t).pc = .idle ∧ (w.rd t).todo.head? = some .dup)

end Verif.H5
