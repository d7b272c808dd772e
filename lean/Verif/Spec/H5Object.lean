import Verif.Model.H5Object
/-!
What the messages of an object header mean, one after the other, without their framing.
-/
namespace Verif.H5

/-- What one message of a version 2 header does to an object: its handler runs on the bytes of the
message, what it leaves must be zero, and a message without data does nothing. -/
def applyMsg (walk : Task → St → Res St) (flags : Nat) (m : Msg) (st : St) : Res St :=
  if m.data = [] then .ok st
  else
    match handle walk 2 flags m.ty m.data.length st ⟨0, m.data⟩ with
    | .ok (st', t) => if t.rem.all (· == 0) then .ok st' else .panic
    | .err e => .err e
    | .panic => .panic

/-- All messages, in order. -/
def applyMsgs (walk : Task → St → Res St) (flags : Nat) : List Msg → St → Res St
  | [], st => .ok st
  | m :: ms, st => applyMsg walk flags m st >>= applyMsgs walk flags ms

/-- A message the writer can frame: its type fits in a byte, its length in two. -/
def Msg.Fits (m : Msg) : Prop := m.ty < 256 ∧ m.data.length < 65536

/-- `b` is in the file at `addr`. -/
def At (file : Bytes) (addr : Nat) (b : Bytes) : Prop := b <+: file.drop addr

end Verif.H5
