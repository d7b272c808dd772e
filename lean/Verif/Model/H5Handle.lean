import Verif.Base.Bytes
/-!
Readers that share a file: netcdf/hdf5/readers.go:27-38, 191-293.

Several goroutines run at the same time. Each step below is one access to what they share: the
lock, the file with its position, and the reference count. A schedule says which goroutine makes the
next step; `step` gives nothing for a step that cannot be made, as when the lock is taken. The file
may give fewer bytes than asked for; how many is part of the schedule.
-/
namespace Verif.H5

/-- The calls on a `raFile`: `Read` into `n` bytes, `ReadAt`, `dup` (by `GetGroup`) and `Close`. -/
inductive FileOp
  | read (n : Nat)
  | readAt (n offset : Nat)
  | dup
  | close
deriving DecidableEq, Repr

/-- Where a goroutine is in its call. -/
inductive Pc
  /-- between two calls -/
  | idle
  /-- readers.go:217-220, 242-244: it has the lock; `n` bytes are wanted, `save` is the position to
  go back to -/
  | locked (n : Nat) (save : Option Nat)
  /-- readers.go:226-231: the file has been positioned -/
  | seeked (n : Nat) (save : Option Nat)
  /-- readers.go:231-239, 252-253: the bytes have been read -/
  | gotBytes (b : Bytes) (save : Option Nat)
  /-- readers.go:210, 262: `dup` has read the count -/
  | counted (count : Int)
  /-- readers.go:274: `dereference` has the lock -/
  | closing
  /-- readers.go:290: `dereference` has changed the count -/
  | closed
  /-- a run-time panic -/
  | crashed
deriving DecidableEq, Repr

/-- A goroutine with its own `raFile`: the calls it has made, the ones it will make, the position
`seekPointer` and what its reads have given. -/
structure Reader where
  done : List FileOp := []
  todo : List FileOp
  pc : Pc := .idle
  pos : Nat := 0
  out : List Bytes := []
deriving DecidableEq, Repr

/-- readers.go:28-32 `refCountedFile`. `cursor` is the position of the file, `hasFile` says that
`file` is not nil and `closes` counts the calls of `Close` on the file. `live` is the number of
groups that the users have open; it is not in the code. -/
structure Shared where
  cursor : Nat := 0
  lock : Option Nat := none
  refCount : Int := 1
  hasFile : Bool := true
  closes : Nat := 0
  live : Nat := 1
deriving DecidableEq, Repr

/-- Everything. -/
structure World where
  sh : Shared
  rd : Nat → Reader

/-- The state with another reader `t`. -/
def World.set (w : World) (t : Nat) (sh : Shared) (r : Reader) : World :=
  { sh, rd := fun u => if u = t then r else w.rd u }

/-- The goroutine `t` has finished its call. -/
def Reader.finish (r : Reader) (out : List Bytes) : Reader :=
  match r.todo with
  | op :: ops => { r with done := r.done ++ [op], todo := ops, pc := .idle, out := r.out ++ out }
  | [] => r

/-- One step of goroutine `t`; `k` is the number of bytes the file gives. -/
def step (file : Bytes) (w : World) (t k : Nat) : Option World :=
  let r := w.rd t
  match r.pc with
  | .idle =>
    match r.todo with
    | [] => none
    | .read n :: _ =>
      if w.sh.lock = none then some (w.set t { w.sh with lock := some t } { r with pc := .locked n none }) else none
    | .readAt n off :: _ =>
      if w.sh.lock = none then
        some (w.set t { w.sh with lock := some t } { r with pc := .locked n (some r.pos), pos := off })
      else none
    | .dup :: _ => some (w.set t w.sh { r with pc := .counted w.sh.refCount })
    | .close :: _ =>
      if w.sh.lock = none then some (w.set t { w.sh with lock := some t } { r with pc := .closing }) else none
  | .locked n save =>
    if w.sh.hasFile then some (w.set t { w.sh with cursor := r.pos } { r with pc := .seeked n save })
    else some (w.set t { w.sh with lock := none } { r with pc := .crashed })
  | .seeked n save =>
    if k ≤ n ∧ k ≤ file.length - w.sh.cursor then
      some (w.set t { w.sh with cursor := w.sh.cursor + k } { r with pc := .gotBytes ((file.drop w.sh.cursor).take k) save })
    else none
  | .gotBytes b save =>
    some (w.set t { w.sh with lock := none } ({ r with pos := save.getD (r.pos + b.length) }.finish [b]))
  | .counted c =>
    some (w.set t { w.sh with refCount := c + 1, live := w.sh.live + 1 } (r.finish []))
  | .closing =>
    let count := w.sh.refCount - 1
    some (w.set t
      { w.sh with
        refCount := count
        live := w.sh.live - 1
        closes := if count = 0 then w.sh.closes + 1 else w.sh.closes
        hasFile := if count = 0 then false else w.sh.hasFile }
      { r with pc := .closed })
  | .closed => some (w.set t { w.sh with lock := none } (r.finish []))
  | .crashed => none

/-- The file has been opened; the goroutines are about to make these calls. -/
def World.start (progs : Nat → List FileOp) : World := { sh := {}, rd := fun t => { todo := progs t } }

/-- The states after any number of steps; `allow` may rule out some steps. -/
inductive Reaches (file : Bytes) (allow : World → Nat → Prop) (w0 : World) : World → Prop
  | refl : Reaches file allow w0 w0
  | step (w w' : World) (t k : Nat) : Reaches file allow w0 w → allow w t → step file w t k = some w' → Reaches file allow w0 w'

end Verif.H5
