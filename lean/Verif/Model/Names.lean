import Verif.Base.Bytes
/-!
Model of internal/validname.go, with Go's decoding of a string into runes.
-/
namespace Verif

/-- A continuation byte in the range `[lo, hi]` (Go: unicode/utf8 acceptRange). -/
def inRange (b : UInt8) (lo hi : Nat) : Bool := lo ≤ b.toNat && b.toNat ≤ hi

/-- Go's `utf8.DecodeRuneInString` on a non-empty string: the rune, and how many bytes after the
first one it uses. An ill-formed sequence gives U+FFFD and uses one byte. -/
def decodeRune (b0 : UInt8) (rest : Bytes) : Nat × Nat :=
  let c := b0.toNat
  let bad := (0xFFFD, 0)
  if c < 0x80 then (c, 0)
  else if 0xC2 ≤ c && c ≤ 0xDF then
    match rest with
    | b1 :: _ => if inRange b1 0x80 0xBF then ((c % 32) * 64 + b1.toNat % 64, 1) else bad
    | _ => bad
  else if 0xE0 ≤ c && c ≤ 0xEF then
    let lo := if c = 0xE0 then 0xA0 else 0x80
    let hi := if c = 0xED then 0x9F else 0xBF
    match rest with
    | b1 :: b2 :: _ =>
      if inRange b1 lo hi && inRange b2 0x80 0xBF then
        (((c % 16) * 64 + b1.toNat % 64) * 64 + b2.toNat % 64, 2)
      else bad
    | _ => bad
  else if 0xF0 ≤ c && c ≤ 0xF4 then
    let lo := if c = 0xF0 then 0x90 else 0x80
    let hi := if c = 0xF4 then 0x8F else 0xBF
    match rest with
    | b1 :: b2 :: b3 :: _ =>
      if inRange b1 lo hi && inRange b2 0x80 0xBF && inRange b3 0x80 0xBF then
        ((((c % 8) * 64 + b1.toNat % 64) * 64 + b2.toNat % 64) * 64 + b3.toNat % 64, 3)
      else bad
    | _ => bad
  else bad

/-- The runes of a Go string, as the `regexp` package steps through it. -/
def runes (s : Bytes) : List Nat :=
  match s with
  | [] => []
  | b :: rest =>
    let d := decodeRune b rest
    d.1 :: runes (rest.drop d.2)
termination_by s.length
decreasing_by simp [List.length_drop]; omega

/-- Membership of runes from U+0080 up in the Unicode categories the patterns use. The tables
themselves (package unicode) are not modelled; the ASCII part is fixed below. -/
structure UniTables where
  isL : Nat → Bool
  isN : Nat → Bool
  isC : Nat → Bool
  isZ : Nat → Bool

/-- `\pL`. -/
def UniTables.letter (u : UniTables) (r : Nat) : Bool :=
  if r < 128 then (65 ≤ r && r ≤ 90) || (97 ≤ r && r ≤ 122) else u.isL r
/-- `\pN`. -/
def UniTables.number (u : UniTables) (r : Nat) : Bool :=
  if r < 128 then 48 ≤ r && r ≤ 57 else u.isN r
/-- `\pC`. -/
def UniTables.control (u : UniTables) (r : Nat) : Bool :=
  if r < 128 then r < 32 || r == 127 else u.isC r
/-- `\pZ`. -/
def UniTables.space (u : UniTables) (r : Nat) : Bool :=
  if r < 128 then r == 32 else u.isZ r

/-- internal/validname.go:10 `^[\pL\pN][^\pC/]*$`, matched against the runes of the name. -/
def matchPattern (u : UniTables) : List Nat → Bool
  | [] => false
  | r :: rs => (u.letter r || u.number r) && rs.all (fun x => !u.control x && x != 47)

/-- internal/validname.go:12 `\pZ$` (unanchored on the left): the last rune is a separator. -/
def matchAntiPattern (u : UniTables) (rs : List Nat) : Bool :=
  match rs.getLast? with
  | some r => u.space r
  | none => false

/-- internal/validname.go:33-35 `IsValidNetCDFName`. -/
def isValidName (u : UniTables) (name : Bytes) : Bool :=
  matchPattern u (runes name) && !matchAntiPattern u (runes name)

end Verif
