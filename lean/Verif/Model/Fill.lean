import Verif.Base.Bytes
/-!
Model of internal/fillvalue.go.
-/
namespace Verif

/-- internal/fillvalue.go:25-28 `FillValueReader`. -/
structure FillReader where
  repeat_ : Bytes
  repeatIndex : Nat
deriving DecidableEq

/-- internal/fillvalue.go:30-32 `NewFillValueReader`. -/
def FillReader.new (rep : Bytes) : FillReader := ⟨rep, 0⟩

/-- internal/fillvalue.go:39-42, the loop `for i := 0; i < len(p)-rl+1; i += rl` that copies whole
patterns. `n` is `len(z)`, the part of the buffer still to be filled (`len(z) = len(p) - i`, so
the loop condition is `rl <= len(z)`). Returns the bytes stored and `len(z)` afterwards. The
loop only terminates for a non-empty pattern; the caller checks that. -/
def FillReader.fast (rep : Bytes) (n : Nat) : Bytes × Nat :=
  if _h : rep.length ≤ n ∧ 0 < rep.length then
    let r := FillReader.fast rep (n - rep.length)
    (rep ++ r.1, r.2)
  else ([], n)
termination_by n
decreasing_by omega

/-- internal/fillvalue.go:44-47, the loop that stores `repeat[ri%rl]` byte by byte. -/
def FillReader.slow (rep : Bytes) : Nat → Nat → Bytes × Nat
  | 0, ri => ([], ri)
  | n + 1, ri =>
    let r := FillReader.slow rep n (ri + 1)
    (rep.getD (ri % rep.length) 0 :: r.1, r.2)

/-- internal/fillvalue.go:34-50 `Read` with a buffer of `n` bytes: the bytes stored in it and the
new state. An empty pattern makes the loop at 39 run forever; the model answers `panic`. -/
def FillReader.read (r : FillReader) (n : Nat) : Res (Bytes × FillReader) :=
  if r.repeat_.length = 0 then .panic
  else
    let (a, rest) := if r.repeatIndex = 0 then FillReader.fast r.repeat_ n else ([], n)
    let (b, ri) := FillReader.slow r.repeat_ rest r.repeatIndex
    .ok (a ++ b, { r with repeatIndex := ri % r.repeat_.length })

/-- A sequence of `Read` calls with the given buffer sizes: everything that was delivered. -/
def FillReader.readAll (r : FillReader) : List Nat → Res Bytes
  | [] => .ok []
  | n :: ns => do
    let (a, r') ← r.read n
    let b ← r'.readAll ns
    pure (a ++ b)

/-- The first `n` bytes of the fill stream, as read through `io.LimitReader`/`io.ReadFull`
(independent of buffer sizes by theorem C14). -/
def fillStream (rep : Bytes) (n : Nat) : Bytes :=
  (List.range n).map (fun i => rep.getD (i % rep.length) 0)

end Verif
