import Verif.Spec.H5Format
import Verif.Model.H5Type
/-!
Datatype messages as the HDF5 file format specification (version 3, section IV.A.2.d) defines them,
in the variants that other programs write: all versions, both byte orders, character sets, paddings,
tags, gaps between the members of compounds. Written without the reader; `DT` is the type of its
results.
-/
namespace Verif.H5.Fmt

/-- A datatype. `ver` is the version of the message. A member of a compound has a name, the offset
of its bytes and, in version 1, up to four dimensions; its type is in `types`. -/
inductive DType
  | fixed (ver size : Nat) (signed be : Bool)
  | float (size : Nat) (be : Bool)
  | str (size pad charset : Nat)
  | opaque (ver size : Nat) (tag : Bytes)
  | compound (ver size : Nat) (members : List (Bytes × Nat × List Nat)) (types : List DType)
  | ref (size kind : Nat)
  | enum (ver : Nat) (baseVer size : Nat) (signed be : Bool) (names : List Bytes) (vals : List Nat)
  | vlenSeq (ver size pad : Nat) (elem : DType)
  | vlenStr (ver size pad charset : Nat) (elem : DType)
  | array (ver size : Nat) (dims perm : List Nat) (elem : DType)

/-- The first eight bytes: class and version, 24 bits, size of an element. -/
def dtHead (cls ver bits size : Nat) : Bytes := num 1 (cls + 16 * ver) ++ num 3 bits ++ num 4 size

/-- A name and a NUL, in versions 1 and 2 followed by NULs up to a multiple of eight bytes. -/
def dtName (ver : Nat) (n : Bytes) : Bytes :=
  n ++ [0] ++ if ver ≤ 2 then List.replicate ((8 - (n.length + 1) % 8) % 8) 0 else []

/-- Bytes for the offset of a member: four, and from version 3 on as many as the size of the
compound needs. -/
def offWidth (ver size : Nat) : Nat :=
  if ver ≤ 2 then 4
  else if size < 256 then 1
  else if size < 65536 then 2
  else if size < 16777216 then 3
  else 4

/-- What follows the offset of a member in version 1: the number of dimensions, three reserved
bytes, a permutation that is zero, four reserved bytes and four dimensions. -/
def dtDims (ver : Nat) (dims : List Nat) : Bytes :=
  if ver = 1 then
    num 1 dims.length ++ num 3 0 ++ num 4 0 ++ num 4 0 ++ num 4 (dims.getD 0 0) ++
      num 4 (dims.getD 1 0) ++ num 4 (dims.getD 2 0) ++ num 4 (dims.getD 3 0)
  else []

/-- A number in the byte order of its type. -/
def numAs (be : Bool) (w n : Nat) : Bytes := if be then (num w n).reverse else num w n

/-- Class 0: byte order in bit 0, sign in bit 3; bit offset and precision. -/
def fixedMsg (ver size : Nat) (signed be : Bool) : Bytes :=
  dtHead 0 ver (bit 0 be + bit 3 signed) size ++ num 2 0 ++ num 2 (8 * size)

/-- Class 1, the two IEEE types: byte order in bit 0, implied leading bit in bits 4 and 5, the
place of the sign in the second byte; bit offset, precision, place and size of exponent and
mantissa, bias. -/
def floatMsg (size : Nat) (be : Bool) : Bytes :=
  if size = 4 then
    dtHead 1 1 (bit 0 be + 32 + 256 * 31) 4 ++ num 2 0 ++ num 2 32 ++ num 1 23 ++ num 1 8 ++
      num 1 0 ++ num 1 23 ++ num 4 127
  else
    dtHead 1 1 (bit 0 be + 32 + 256 * 63) 8 ++ num 2 0 ++ num 2 64 ++ num 1 52 ++ num 1 11 ++
      num 1 0 ++ num 1 52 ++ num 4 1023

mutual
/-- The bytes of the message. -/
def DType.bytes : DType → Bytes
  | .fixed v s sg be => fixedMsg v s sg be
  | .float s be => floatMsg s be
  | .str s pad cs => dtHead 3 1 (pad + 16 * cs) s
  | .opaque v s tag =>
    let pad := (8 - tag.length % 8) % 8
    dtHead 5 v (tag.length + pad) s ++ tag ++ List.replicate pad 0
  | .compound v s ms ts => dtHead 6 v ms.length s ++ membersBytes v s ms ts
  | .ref s k => dtHead 7 1 k s
  | .enum v bv s sg be ns vs =>
    dtHead 8 v ns.length s ++ fixedMsg bv s sg be ++ ns.flatMap (dtName v) ++ vs.flatMap (numAs be s)
  | .vlenSeq v s pad e => dtHead 9 v (16 * pad) s ++ e.bytes
  | .vlenStr v s pad cs e => dtHead 9 v (1 + 16 * pad + 256 * cs) s ++ e.bytes
  | .array v s dims perm e =>
    dtHead 10 v 0 s ++ num 1 dims.length ++ (if v ≤ 2 then num 3 0 else []) ++ dims.flatMap (num 4) ++
      (if v ≤ 2 then perm.flatMap (num 4) else []) ++ e.bytes
/-- The members of a compound, one after the other. -/
def membersBytes (ver size : Nat) : List (Bytes × Nat × List Nat) → List DType → Bytes
  | m :: ms, t :: ts =>
    dtName ver m.1 ++ num (offWidth ver size) m.2.1 ++ dtDims ver m.2.2 ++ t.bytes ++
      membersBytes ver size ms ts
  | _, _ => []
end

mutual
/-- What the message says. -/
def DType.dt : DType → DT
  | .fixed _ s sg be => .fixed s sg be
  | .float s be => .float s be
  | .str s _ _ => .str s
  | .opaque _ s tag => .opaque s (tag != [])
  | .compound v s ms ts =>
    .compound s (ms.map fun m => (m.1, m.2.1, if v = 1 then some m.2.2 else none)) (typesDt ts)
  | .ref s _ => .ref s
  | .enum _ _ s sg be ns vs => .enum s (.fixed s sg be) ns vs
  | .vlenSeq _ s _ e => .vlen s false e.dt
  | .vlenStr _ s _ _ e => .vlen s true e.dt
  | .array _ s dims _ e => .array s dims e.dt
/-- The types of the members. -/
def typesDt : List DType → List DT
  | [] => []
  | t :: ts => t.dt :: typesDt ts
end

/-- An integer size of the machine. -/
def IntSize (s : Nat) : Prop := s = 1 ∨ s = 2 ∨ s = 4 ∨ s = 8

/-- A member of a compound: the name has no NUL, the numbers fit. -/
def MemberOK (ver size : Nat) (m : Bytes × Nat × List Nat) : Prop :=
  (0 : UInt8) ∉ m.1 ∧ m.2.1 < 256 ^ offWidth ver size ∧ (ver = 1 → m.2.2.length ≤ 4) ∧
    ∀ d ∈ m.2.2, d < 2 ^ 32

mutual
/-- The numbers fit their fields and the reader supports the type. `last`: nothing follows in the
message. An opaque type has to be the last one, a compound or enumeration has at most 255 members,
and from version 3 on the size of a compound may not need three bytes. -/
def DType.Readable (last : Bool) : DType → Prop
  | .fixed v s _ _ => 1 ≤ v ∧ v ≤ 4 ∧ IntSize s
  | .float s _ => s = 4 ∨ s = 8
  | .str s pad cs => 0 < s ∧ s < 2 ^ 32 ∧ pad ≤ 2 ∧ cs ≤ 1
  | .opaque v s tag => last = true ∧ 1 ≤ v ∧ v ≤ 4 ∧ 0 < s ∧ s < 2 ^ 32 ∧ (0 : UInt8) ∉ tag ∧
      tag.length ≤ 248
  | .compound v s ms ts => 1 ≤ v ∧ v ≤ 4 ∧ 0 < s ∧ s < 2 ^ 32 ∧ ms.length = ts.length ∧
      ms.length ≤ 255 ∧ (∀ m ∈ ms, MemberOK v s m) ∧ offWidth v s ≠ 3 ∧ TypesReadable last ts
  | .ref s k => 0 < s ∧ s < 2 ^ 32 ∧ k ≤ 1
  | .enum v bv s _ _ ns vs => 1 ≤ v ∧ v ≤ 4 ∧ 1 ≤ bv ∧ bv ≤ 4 ∧ IntSize s ∧ ns.length = vs.length ∧
      ns.length ≤ 255 ∧ (∀ n ∈ ns, (0 : UInt8) ∉ n) ∧ ∀ x ∈ vs, x < 256 ^ s
  | .vlenSeq v s pad e => 1 ≤ v ∧ v ≤ 4 ∧ 0 < s ∧ s < 2 ^ 32 ∧ pad ≤ 1 ∧ e.Readable last
  | .vlenStr v s pad cs e => 1 ≤ v ∧ v ≤ 4 ∧ 0 < s ∧ s < 2 ^ 32 ∧ pad ≤ 1 ∧ cs ≤ 1 ∧ e.Readable last
  | .array v s dims perm e => 1 ≤ v ∧ v ≤ 4 ∧ 0 < s ∧ s < 2 ^ 32 ∧ dims.length ≤ 255 ∧
      (∀ d ∈ dims, d < 2 ^ 32) ∧ perm.length = dims.length ∧ (∀ d ∈ perm, d < 2 ^ 32) ∧ e.Readable last
/-- The members of a compound. -/
def TypesReadable (last : Bool) : List DType → Prop
  | [] => True
  | [t] => t.Readable last
  | t :: ts => t.Readable false ∧ TypesReadable last ts
end

end Verif.H5.Fmt
