import Verif.Spec.H5Chunk
import Verif.Spec.H5Stream
import Verif.Model.H5Data
/-!
What it means that a file stores a chunked variable, and what its elements are.
-/
namespace Verif.H5

/-- The stored type of the numbers of a kind. -/
def storedNum (be : Bool) : Kind → DT
  | .i8 => .fixed 1 true be
  | .u8 => .fixed 1 false be
  | .i16 => .fixed 2 true be
  | .u16 => .fixed 2 false be
  | .i32 => .fixed 4 true be
  | .u32 => .fixed 4 false be
  | .i64 => .fixed 8 true be
  | .u64 => .fixed 8 false be
  | .f32 => .float 4 be
  | .f64 => .float 8 be

/-- The bytes of a number. -/
def numBytes (be : Bool) (k : Kind) (bits : Nat) : Bytes :=
  if be then beEnc k.size bits else leEnc k.size bits

/-- The types of the elements and the Go types they are read as. -/
inductive ElemTy : DT → GoTy → Prop
  | num (k : Kind) (be : Bool) : ElemTy (storedNum be k) (.num k)
  | fixStr (n : Nat) : 1 < n → ElemTy (.str n) .str
  | vlenStr (e : DT) : ElemTy (.vlen 16 true e) .str
  | seq (k : Kind) (be : Bool) : ElemTy (.vlen 16 false (storedNum be k)) (.slice (.num k))

/-- The bytes of an element and its value. Strings and sequences of variable length are in the heap;
their elements are a length, an address and a number. -/
inductive ElemOf (heap : Nat → Nat → Res (Option Bytes)) : DT → Bytes → GoVal → Prop
  | num (k : Kind) (be : Bool) (bits : Nat) : bits < 256 ^ k.size →
      ElemOf heap (storedNum be k) (numBytes be k bits) (.num k bits)
  | fixStr (n : Nat) (s : Bytes) : s.length ≤ n → 0 ∉ s →
      ElemOf heap (.str n) (s ++ List.replicate (n - s.length) 0) (.str s)
  | vlenStr (e : DT) (addr idx : Nat) (s : Bytes) : 0 < s.length → s.length < 2 ^ 32 → addr < 2 ^ 64 → idx < 2 ^ 32 →
      0 ∉ s → heap addr idx = .ok (some s) →
      ElemOf heap (.vlen 16 true e) (leEnc 4 s.length ++ (leEnc 8 addr ++ leEnc 4 idx)) (.str s)
  | emptyStr (e : DT) (addr idx : Nat) : addr < 2 ^ 64 → idx < 2 ^ 32 →
      ElemOf heap (.vlen 16 true e) (leEnc 4 0 ++ (leEnc 8 addr ++ leEnc 4 idx)) (.str [])
  | seq (k : Kind) (be : Bool) (addr idx : Nat) (xs : List Nat) : 0 < xs.length → xs.length < 2 ^ 32 → addr < 2 ^ 64 →
      idx < 2 ^ 32 → (∀ x ∈ xs, x < 256 ^ k.size) → heap addr idx = .ok (some (xs.flatMap (numBytes be k))) →
      ElemOf heap (.vlen 16 false (storedNum be k)) (leEnc 4 xs.length ++ (leEnc 8 addr ++ leEnc 4 idx))
        (.slice (.num k) (xs.map (.num k)))
  | emptySeq (k : Kind) (be : Bool) (addr idx : Nat) : addr < 2 ^ 64 → idx < 2 ^ 32 →
      ElemOf heap (.vlen 16 false (storedNum be k)) (leEnc 4 0 ++ (leEnc 8 addr ++ leEnc 4 idx)) (.slice (.num k) [])

/-- What is stored for the chunk `c`, read through the filters, starts with `data`. -/
def ChunkHolds (inflate : Bytes → Res Bytes) (file : Bytes) (filters : List (Nat × List Nat)) (c : Chunk) (data : Bytes) :
    Prop :=
  ∃ rest, blockBytes inflate file filters ⟨.at c.addr c.size, data.length, c.mask, c.offsets⟩ 0 0 = .ok (data ++ rest)

/-- The fill values of the netCDF format for numbers (`NC_FILL_…`), as bit patterns. -/
def stdFill : Kind → Nat
  | .i8 => 0x81
  | .u8 => 0xff
  | .i16 => 0x8001
  | .u16 => 0xffff
  | .i32 => 0x80000001
  | .u32 => 0xffffffff
  | .i64 => 0x8000000000000002
  | .u64 => 0xfffffffffffffffe
  | .f32 => 0x7cf00000
  | .f64 => 0x479e000000000000

/-- The bytes `pat` are repeated in the places of the variable `i` that are not stored: the fill
value of its description, or that of the old kind of description, or, when it is said to be
undefined, the one of the netCDF format, or else zeros. (Undefined fill values of elements that are
neither numbers nor strings nor sequences are not covered.) -/
inductive FillOf (i : Info) : DT → Bytes → Prop
  | given (dt : DT) (pat : Bytes) : i.fillValue = some (.value pat) → pat ≠ [] → FillOf i dt pat
  | old (dt : DT) (pat : Bytes) : i.fillValue = none → i.fillValueOld = some pat → pat ≠ [] → FillOf i dt pat
  | undefLE (k : Kind) : i.fillValue = some .undefined → FillOf i (storedNum false k) (leEnc k.size (stdFill k))
  | undefBE (k : Kind) : i.fillValue = some .undefined →
      FillOf i (storedNum true k) (leEnc k.size (stdFill k)).reverse
  | undefStr (n : Nat) : i.fillValue = some .undefined → FillOf i (.str n) [0]
  | undefVlen (n : Nat) (b : Bool) (t : DT) : i.fillValue = some .undefined → FillOf i (.vlen n b t) [0]
  | zeros (be : Bool) (k : Kind) : i.fillValue = none → i.fillValueOld = none → k.isFloat = true →
      FillOf i (storedNum be k) (List.replicate k.size 0)
  | zero (dt : DT) : i.fillValue = none → i.fillValueOld = none → (∀ n be, dt ≠ .float n be) → FillOf i dt [0]

/-- The file stores the variable `i` with elements of type `dt` in chunks: `t` is the index of the
chunks, at `addr`, and the element `idx` has the bytes `cell idx`. Chunks that are not stored have
the fill value `pat`. -/
structure StoredVar (inflate : Bytes → Res Bytes) (file : Bytes) (i : Info) (dt : DT) (dims : List Nat)
    (cell : List Nat → Bytes) (pat : Bytes) (t : Index) (addr : Nat) : Prop where
  geo : Geo dims i.layout dt.len
  small : file.length < 2 ^ 63
  rank : dims.length + 1 < 256
  chunk : i.chunk = some (addr, dt.len, prod i.layout, dims.length + 1)
  addr0 : addr ≠ 0
  stored : t.Stored file dims.length true addr
  sorted : t.Sorted dims
  aligned : ∀ k ∈ t.keys, ∃ c, c.length = dims.length ∧ k.offsets = mulIx c i.layout
  keys : ∀ k ∈ t.keys, rowIndex dims k.offsets * dt.len < 2 ^ 64
  distinct : (t.chunks.map (·.offsets)).Nodup
  cells : ∀ idx, (cell idx).length = dt.len
  fill : FillOf i dt pat
  patLen : pat.length ∣ dt.len
  holds : ∀ ch ∈ t.chunks, ∃ c, InRange (gridShape dims i.layout) c ∧ ch.offsets = mulIx c i.layout ∧
    ChunkHolds inflate file i.filters ch (chunkData i.layout cell c)
  missing : ∀ c, InRange (gridShape dims i.layout) c → (∀ ch ∈ t.chunks, ch.offsets ≠ mulIx c i.layout) →
    chunkData i.layout cell c = fillStream pat (prod i.layout * dt.len)

/-- The variable `i` with elements of type `dt` is stored in one piece, in the file or in its
description, or it was never written; the element `idx` has the bytes `cell idx`. -/
structure FlatVar (file : Bytes) (i : Info) (dt : DT) (dims : List Nat) (cell : List Nat → Bytes) (pat : Bytes) : Prop where
  layout : i.layout = []
  chunk : i.chunk = none
  filters : i.filters = []
  small : file.length < 2 ^ 63
  size : prod dims * dt.len < 2 ^ 63
  dlt : ∀ d ∈ dims, d < 2 ^ 63
  elem : 0 < dt.len
  cells : ∀ idx, (cell idx).length = dt.len
  fill : FillOf i dt pat
  patLen : pat.length ∣ dt.len
  data : (∃ a, i.blocks = [.at a (prod dims * dt.len)] ∧ At file a (rowMajor dims cell)) ∨
    i.blocks = [.raw (rowMajor dims cell)] ∨
    i.blocks = [] ∧ rowMajor dims cell = fillStream pat (prod dims * dt.len)

/-- The blocks `vs` hold the pieces of the byte stream of the variable `i`, in the same order. Without
chunks, the pieces follow one another from position `off`. A chunk has the position of its number
among all chunks. -/
inductive Placed (inflate : Bytes → Res Bytes) (file : Bytes) (i : Info) (dims : List Nat) (dtLen : Nat) :
    Nat → List DBlock → List Piece → Prop
  | nil (off : Nat) : Placed inflate file i dims dtLen off [] []
  | cons (off : Nat) (v : DBlock) (vs : List DBlock) (s : Piece) (ss : List Piece)
      (flat : i.layout = [] → s.offset = off)
      (chunk : i.layout ≠ [] → ∃ c, InRange (gridShape dims i.layout) c ∧ v.offsets = mulIx c i.layout ∧
        s.offset = rowIndex (gridShape dims i.layout) c * (prod i.layout * dtLen))
      (raw : (∃ r, v.src = .raw r) → i.filters = []) (len : v.dsLength = s.data.length)
      (holds : ∃ rest, blockBytes inflate file i.filters v 0 0 = .ok (s.data ++ rest))
      (more : Placed inflate file i dims dtLen (s.offset + s.data.length) vs ss) :
      Placed inflate file i dims dtLen off (v :: vs) (s :: ss)

end Verif.H5
