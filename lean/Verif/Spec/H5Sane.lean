import Verif.Spec.H5Others
import Verif.Spec.Lookup3
/-!
What a tree of objects and the headers of a file have to satisfy, independently of how the file is
read: names of siblings are different, no object is met twice, and the headers with a checksum are
as they were written.
-/
namespace Verif.H5.Sane
open Verif.H5

/-- The `n` bytes at `addr` are followed by their checksum, as the HDF5 format prescribes: four
bytes with the lookup3 hash, the low byte first. -/
def Intact (file : Bytes) (addr n : Nat) : Prop :=
  addr + n + 4 ≤ file.length ∧
    leDec ((file.drop (addr + n)).take 4) = (Lookup3.hash ((file.drop addr).take n)).toNat

/-- Byte `i` of a file, zero behind its end. -/
def byteAt (file : Bytes) (i : Nat) : Nat := (file.getD i 0).toNat

/-- What comes before the number that says how long the messages are, in a version 2 object header:
signature, version and flags; four times when bit 5 of the flags is set; two limits for attributes
when bit 4 is set. -/
def prefixLength (file : Bytes) (addr : Nat) : Nat :=
  6 + (if byteAt file (addr + 5) / 32 % 2 = 1 then 16 else 0) +
    (if byteAt file (addr + 5) / 16 % 2 = 1 then 4 else 0)

/-- How many bytes that number has. -/
def sizeBytes (file : Bytes) (addr : Nat) : Nat := 2 ^ (byteAt file (addr + 5) % 4)

/-- The length of a version 2 object header, without the checksum. -/
def headerLength (file : Bytes) (addr : Nat) : Nat :=
  prefixLength file addr + sizeBytes file addr +
    leDec ((file.drop (addr + prefixLength file addr)).take (sizeBytes file addr))

/-- If there is a version 2 object header at `addr`, it is intact. -/
def HeaderIntact (file : Bytes) (addr : Nat) : Prop :=
  (file.drop addr).take 4 = ascii "OHDR" →
    byteAt file (addr + 4) = 2 ∧ Intact file addr (headerLength file addr)

/-- A message of a version 2 object header, of any type. -/
structure Stored where
  ty : Nat
  flags : Nat
  order : Nat
  data : Bytes

/-- How it is stored: type, length, flags, its place in the creation order if that is tracked, and
the data. -/
def Stored.bytes (tracked : Bool) (m : Stored) : Bytes :=
  leEnc 1 m.ty ++ leEnc 2 m.data.length ++ leEnc 1 m.flags ++
    (if tracked then leEnc 2 m.order else []) ++ m.data

/-- The numbers fit. -/
def Stored.OK (m : Stored) : Prop :=
  m.ty < 256 ∧ m.data.length < 65536 ∧ m.flags < 256 ∧ m.order < 65536

/-- Among the messages in the `len` bytes at `start` is one that says the header goes on in the
`size` bytes at `off`, or one of the blocks where the header goes on says so. Such a block starts
with a signature of four bytes and ends with a checksum of four bytes. -/
inductive Continues (file : Bytes) (tracked : Bool) : (start len off size : Nat) → Prop
  | here (start len off size : Nat) (before : List Stored) (m : Stored)
      (ok : ∀ x ∈ before, x.OK) (mok : m.OK) (ty : m.ty = 16)
      (data : m.data = leEnc 8 off ++ leEnc 8 size) (hoff : off < 2 ^ 64) (hsize : size < 2 ^ 64)
      (fits : ((before ++ [m]).flatMap (Stored.bytes tracked)).length ≤ len)
      (stored : (file.drop start).take ((before ++ [m]).flatMap (Stored.bytes tracked)).length =
        (before ++ [m]).flatMap (Stored.bytes tracked)) : Continues file tracked start len off size
  | next (start len off size off' size' : Nat) : Continues file tracked start len off size →
      Continues file tracked (off + 4) (size - 8) off' size' → Continues file tracked start len off' size'

/-- If there is a version 2 object header at `addr`, all the blocks where it goes on have their
signature and are intact. -/
def ContinuationsIntact (file : Bytes) (addr : Nat) : Prop :=
  (file.drop addr).take 4 = ascii "OHDR" →
    ∀ off size, Continues file (byteAt file (addr + 5) / 4 % 2 == 1)
        (addr + prefixLength file addr + sizeBytes file addr)
        (leDec ((file.drop (addr + prefixLength file addr)).take (sizeBytes file addr))) off size →
      (file.drop off).take 4 = ascii "OCHK" ∧ 4 ≤ size ∧ Intact file off (size - 4)

/-- The number of `w` bytes at `i`. -/
def numAt (file : Bytes) (i w : Nat) : Nat := leDec ((file.drop i).take w)

/-- There is a fractal heap at `addr`, and its header is intact: 142 bytes. If its root block is an
indirect one, that is intact too; its length follows from the size of the heap in bits (at 128) and
the number of rows (at 140) of four addresses. -/
def HeapIntact (file : Bytes) (addr : Nat) : Prop :=
  (file.drop addr).take 4 = ascii "FRHP" ∧ Intact file addr 142 ∧
    (0 < numAt file (addr + 140) 2 → numAt file (addr + 140) 2 < 2048 →
      (file.drop (numAt file (addr + 132) 8)).take 4 = ascii "FHIB" ∧
      Intact file (numAt file (addr + 132) 8)
        (13 + numAt file (addr + 128) 2 / 8 + numAt file (addr + 140) 2 * 32))

/-- The bytes of a record of a version 2 B-tree: 11 for a link, 17 for an attribute. The type is at 5 in
a node. -/
def recordLength (file : Bytes) (node : Nat) : Nat := if numAt file (node + 5) 1 = 5 then 11 else 17

/-- All the nodes of the part of a version 2 B-tree below a node at `addr` with `n` records are intact. It
is a leaf if the depth is zero, an internal node otherwise. The length of a node follows from the size
of a record and the number of records. An internal node has one child more than records, with an
address and a number of one byte each, and of another two bytes if they are internal nodes. -/
def NodesIntact (file : Bytes) (recordSize : Nat) : (depth addr n : Nat) → Prop
  | 0, addr, n => n < 2 ^ 40 → (file.drop addr).take 4 = ascii "BTLF" ∧ Intact file addr (6 + n * recordSize)
  | depth + 1, addr, n => (file.drop addr).take 4 = ascii "BTIN" ∧
      Intact file addr (6 + n * recordSize + (n + 1) * (9 + if 0 < depth then 2 else 0)) ∧
      ∀ i ≤ n, NodesIntact file recordSize depth
        (numAt file (addr + (6 + n * recordLength file addr + i * (9 + if 0 < depth then 2 else 0))) 8)
        (numAt file (addr + (6 + n * recordLength file addr + i * (9 + if 0 < depth then 2 else 0) + 8)) 1)

/-- There is a version 2 B-tree at `addr`, and its header is intact: 34 bytes. So are its nodes; the header
has the size of a record (at 10), the depth (at 12), the address of the root node (at 16) and the number
of records, of the whole tree (at 26) and of the root node (at 24). -/
def TreeIntact (file : Bytes) (addr : Nat) : Prop :=
  (file.drop addr).take 4 = ascii "BTHD" ∧ Intact file addr 34 ∧
    NodesIntact file (numAt file (addr + 10) 2) (numAt file (addr + 12) 2) (numAt file (addr + 16) 8)
      (if 0 < numAt file (addr + 12) 2 then numAt file (addr + 24) 2 else numAt file (addr + 26) 8)

/-- If the links or the attributes of an object are in a heap, the heap and the tree that goes with it
are intact. -/
def HeapsIntact (file : Bytes) (i : Info) : Prop :=
  ∀ heap tree, i.link = some (heap, tree) ∨ i.attr = some (heap, tree) → heap ≠ 2 ^ 64 - 1 →
    HeapIntact file heap ∧ TreeIntact file tree

/-- In this tree siblings have different names, and what `p` says holds for every object. -/
inductive Sane (p : Info → Prop) : Obj → Prop
  | mk (i : Info) (kids : List Obj) (names : (kids.map (·.info.name)).Nodup) (here : p i)
      (below : ∀ k ∈ kids, Sane p k) : Sane p (.mk i kids)

/-- The names of the tree below this object can be part of a path: they are not empty and have no
slash. -/
inductive PlainNames : Obj → Prop
  | mk (i : Info) (kids : List Obj)
      (names : ∀ k ∈ kids, k.info.name ≠ [] ∧ 47 ∉ k.info.name)
      (below : ∀ k ∈ kids, PlainNames k) : PlainNames (.mk i kids)

/-- The end of the file as the superblock says it: where that number is depends on the version. -/
def endOfFile (file : Bytes) : Nat :=
  leDec ((file.drop (if byteAt file 8 = 0 then 40 else if byteAt file 8 = 1 then 44 else 28)).take 8)

end Verif.H5.Sane
