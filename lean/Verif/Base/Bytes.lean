/-!
Byte strings, outcomes of Go functions, fixed-width integer codecs.
-/
namespace Verif

/-- Go `[]byte` / `string` contents. -/
abbrev Bytes := List UInt8

/-- Go `error` values that the modelled functions return or throw
(netcdf/cdf/cdf.go:84-96, netcdf/cdf/cdfwriter.go:49-55, netcdf/hdf5/errors.go,
netcdf/util/orderedmap.go:24-26, netcdf/netcdf4.go:16-19, io.EOF, io.ErrUnexpectedEOF,
api.ErrUnsupported). -/
inductive Err
  | eof                     -- io.EOF / io.ErrUnexpectedEOF
  | notCDF | unknownVersion | unknownType | corruptedFile | notFound
  | noStreamingDimensions | internal | duplicateVariable | tooManyDimensions
  | fillValue | unlimitedMustBeFirst | dimensionSize | invalidName | attribute
  | emptySlice | keysDontMatchValues | unknownKind | unsupported
  | invalidSlice            -- errors.New("invalid slice parameters")
  | badMagic | version | offsetSize | truncated | corrupted | checksum
  | assertFail              -- hdf5 assert()/fail()
  | dataspaceVersion | layout | dimensionality | virtualStorage | external
  | unsupportedFilter | superblock | linkType | other
deriving DecidableEq, Repr

/-- Outcome of a Go function: a value, a Go `error`, or a run-time panic. -/
inductive Res (α : Type u)
  | ok (a : α)
  | err (e : Err)
  | panic
deriving DecidableEq, Repr

namespace Res

@[simp] def bind {α : Type u} {β : Type v} (x : Res α) (f : α → Res β) : Res β :=
  match x with
  | ok a => f a
  | err e => err e
  | panic => panic

@[simp] def map {α : Type u} {β : Type v} (f : α → β) (x : Res α) : Res β :=
  match x with
  | ok a => ok (f a)
  | err e => err e
  | panic => panic

instance : Monad Res where
  pure := ok
  bind := bind

@[simp] theorem pure_eq {α : Type u} (a : α) : (pure a : Res α) = ok a := rfl
@[simp] theorem bind_ok {α β : Type u} (a : α) (f : α → Res β) : (ok a >>= f) = f a := rfl
@[simp] theorem bind_err {α β : Type u} (e : Err) (f : α → Res β) :
    ((err e : Res α) >>= f) = err e := rfl
@[simp] theorem bind_panic {α β : Type u} (f : α → Res β) :
    ((panic : Res α) >>= f) = panic := rfl

theorem bind_eq_ok {α β : Type u} {x : Res α} {f : α → Res β} {b : β} :
    (x >>= f) = ok b ↔ ∃ a, x = ok a ∧ f a = ok b := by
  cases x <;> simp

def isOk {α : Type u} : Res α → Bool
  | ok _ => true
  | _ => false

def isErr {α : Type u} : Res α → Bool
  | err _ => true
  | _ => false

end Res

/-- `binary.LittleEndian` encoding of the low `k` bytes of `n`. -/
def leEnc : Nat → Nat → Bytes
  | 0, _ => []
  | k + 1, n => UInt8.ofNat (n % 256) :: leEnc k (n / 256)

/-- Little-endian value of a byte string. -/
def leDec : Bytes → Nat
  | [] => 0
  | b :: bs => b.toNat + 256 * leDec bs

/-- `binary.BigEndian` encoding of the low `k` bytes of `n`. -/
def beEnc (k n : Nat) : Bytes := (leEnc k n).reverse

/-- Big-endian value of a byte string. -/
def beDec (bs : Bytes) : Nat := leDec bs.reverse

@[simp] theorem leEnc_length (k n : Nat) : (leEnc k n).length = k := by
  induction k generalizing n with
  | zero => rfl
  | succ k ih => simp [leEnc, ih]

@[simp] theorem beEnc_length (k n : Nat) : (beEnc k n).length = k := by simp [beEnc]

theorem leDec_leEnc (k n : Nat) : leDec (leEnc k n) = n % 256 ^ k := by
  induction k generalizing n with
  | zero => simp [leEnc, leDec, Nat.mod_one]
  | succ k ih =>
    have h : n % 256 % 2 ^ 8 = n % 256 := by omega
    simp only [leEnc, leDec, ih, UInt8.toNat_ofNat', h]
    rw [Nat.pow_succ, Nat.mul_comm (256 ^ k) 256, Nat.mod_mul]

theorem leDec_leEnc_of_lt {k n : Nat} (h : n < 256 ^ k) : leDec (leEnc k n) = n := by
  rw [leDec_leEnc, Nat.mod_eq_of_lt h]

theorem beDec_beEnc (k n : Nat) : beDec (beEnc k n) = n % 256 ^ k := by
  simp [beDec, beEnc, leDec_leEnc]

theorem beDec_beEnc_of_lt {k n : Nat} (h : n < 256 ^ k) : beDec (beEnc k n) = n := by
  rw [beDec_beEnc, Nat.mod_eq_of_lt h]

theorem leDec_lt (bs : Bytes) : leDec bs < 256 ^ bs.length := by
  induction bs with
  | nil => simp [leDec]
  | cons b bs ih =>
    have hb : b.toNat < 256 := b.toNat_lt
    simp only [leDec, List.length_cons, Nat.pow_succ]
    omega

theorem beDec_lt (bs : Bytes) : beDec bs < 256 ^ bs.length := by
  have := leDec_lt bs.reverse
  simpa [beDec] using this

theorem leEnc_leDec (bs : Bytes) : leEnc bs.length (leDec bs) = bs := by
  induction bs with
  | nil => rfl
  | cons b bs ih =>
    have hb : b.toNat < 256 := b.toNat_lt
    have h1 : (b.toNat + 256 * leDec bs) % 256 = b.toNat := by omega
    have h2 : (b.toNat + 256 * leDec bs) / 256 = leDec bs := by omega
    simp [leEnc, leDec, h1, h2, ih]

theorem beEnc_beDec (bs : Bytes) : beEnc bs.length (beDec bs) = bs := by
  have := leEnc_leDec bs.reverse
  simp only [List.length_reverse] at this
  simp [beEnc, beDec, this]

end Verif
