import Verif.Model.GoVal
/-!
Reading primitives of netcdf/hdf5/hdf5.go, netcdf/hdf5/readers.go and netcdf/hdf5/assert.go.

A `remReader` is a position (`Count()`) and the bytes that are left (`Rem()` of them). Values of
`uint64` are natural numbers below `2^64`. `logger.Fatal` ends the process with `os.Exit(1)`; like a
run-time panic it is the outcome `panic`. Logging is left out. Error values keep their identity
where the package distinguishes them; `ErrInternal` of `assert`/`fail` is `assertFail`. Memory is
not limited: a length that is too large for `make` is an error of the read that follows.
-/
namespace Verif.H5

/-- netcdf/hdf5/readers.go:21-26, 42-48: a `remReader` over bytes. -/
structure S where
  pos : Nat
  rem : Bytes
deriving DecidableEq, Repr

/-- A function that reads from a `remReader`. -/
abbrev P (α : Type) := S → Res (α × S)

instance : Monad P where
  pure a := fun s => .ok (a, s)
  bind p f := fun s =>
    match p s with
    | .ok (a, s') => f a s'
    | .err e => .err e
    | .panic => .panic

theorem P.bind_apply {α β : Type} (p : P α) (f : α → P β) (s : S) :
    (p >>= f) s = match p s with
      | .ok (a, s') => f a s'
      | .err e => .err e
      | .panic => .panic := rfl

theorem P.pure_apply {α : Type} (a : α) (s : S) : (pure a : P α) s = .ok (a, s) := rfl

/-- netcdf/hdf5/assert.go:59-69 `fail`, `failError`. -/
def P.fail {α : Type} (e : Err) : P α := fun _ => .err e
/-- A run-time panic, or the end of the process by `logger.Fatal`. -/
def P.crash {α : Type} : P α := fun _ => .panic
/-- netcdf/hdf5/assert.go:24-30, 49-55 `assert`, `assertError`. -/
def P.assert (b : Bool) (e : Err) : P Unit := if b then pure () else P.fail e
/-- Lift an outcome. -/
def P.lift {α : Type} (r : Res α) : P α := fun s =>
  match r with
  | .ok a => .ok (a, s)
  | .err e => .err e
  | .panic => .panic

/-- `binary.Read` of `n` bytes: an error when there are not enough. -/
def rdN (n : Nat) : P Bytes := fun s =>
  if n ≤ s.rem.length then .ok (s.rem.take n, ⟨s.pos + n, s.rem.drop n⟩) else .err .eof

/-- `Rem()`. -/
def remLen : P Nat := fun s => .ok (s.rem.length, s)

/-- `Count()`. -/
def count : P Nat := fun s => .ok (s.pos, s)

/-- netcdf/hdf5/hdf5.go:301-303 `read8`. -/
def read8 : P Nat := do
  let b ← rdN 1
  pure (leDec b)

/-- netcdf/hdf5/hdf5.go:305-309 `read16`. -/
def read16 : P Nat := do
  let b ← rdN 2
  pure (leDec b)

/-- netcdf/hdf5/hdf5.go:311-315 `read32`. -/
def read32 : P Nat := do
  let b ← rdN 4
  pure (leDec b)

/-- netcdf/hdf5/hdf5.go:317-321 `read64`. -/
def read64 : P Nat := do
  let b ← rdN 8
  pure (leDec b)

/-- netcdf/hdf5/hdf5.go:323-337 `readEnc`. -/
def readEnc (e : Nat) : P Nat :=
  if e = 1 then read8
  else if e = 2 then read16
  else if e = 4 then read32
  else if e = 8 then read64
  else P.fail .assertFail

/-- netcdf/hdf5/readers.go:16-19 `skip`. -/
def skip (n : Nat) : P Unit := do
  let _ ← rdN n
  pure ()

/-- netcdf/hdf5/readers.go:161-168 `newResetReader`: run `p` on the next `n` bytes; what it leaves
unread stays in the outer reader, with the position moved by what it read. -/
def sub {α : Type} (n : Nat) (p : P α) : P α := fun s =>
  match p ⟨0, s.rem.take n⟩ with
  | .ok (a, t) => .ok (a, ⟨s.pos + t.pos, t.rem ++ s.rem.drop n⟩)
  | .err e => .err e
  | .panic => .panic

/-- netcdf/hdf5/assert.go:70-104 `checkZeroes`, `padBytesCheck` with the package's `logFunc = logger.Fatal`:
`n` bytes have to be zero, another one ends the process. -/
def checkZeroes (n : Nat) : P Unit := do
  let b ← rdN n
  if b.all (· == 0) then pure () else P.crash

/-- netcdf/hdf5/assert.go:65-68 `padBytes(bf, 7)`: zeros up to the next multiple of eight of
`Count()`. -/
def padTo8 : P Unit := do
  let p ← count
  checkZeroes ((8 - p % 8) % 8)

/-- netcdf/hdf5/hdf5.go:1102-1139 `checkVal`. -/
def checkVal (want have_ : Nat) : P Unit := P.assert (want == have_) .assertFail

/-- Go `int64(x)` of a `uint64`. -/
def i64 (x : Nat) : Int := if x < 2 ^ 63 then x else (x : Int) - 2 ^ 64

/-- Two's complement wrap-around of `int64`. -/
def wrap64 (x : Int) : Int := (x + 2 ^ 63) % 2 ^ 64 - 2 ^ 63

/-- netcdf/hdf5/hdf5.go:286-295 `newSeek`. A negative position or size makes every later `Read` of
at least one byte fail; that is an empty reader here. -/
def newSeek (file : Bytes) (addr : Nat) (size : Int) : Res S :=
  if wrap64 (i64 addr + size) ≤ file.length then
    let size := if size = 0 then (file.length : Int) - i64 addr else size
    .ok ⟨0, if i64 addr < 0 then [] else (file.drop addr).take size.toNat⟩
  else .err .assertFail

end Verif.H5
