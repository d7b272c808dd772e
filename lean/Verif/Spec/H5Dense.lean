import Verif.Spec.H5Header
import Verif.Spec.H5Object
/-!
Where groups keep links and objects keep attributes outside of object headers, as the HDF5 file
format specification defines it: symbol tables with B-trees of version 1 and local heaps (III.A.1,
III.B, III.D), and B-trees of version 2 with fractal heaps (III.A.2, III.G). Written without the
reader.
-/
namespace Verif.H5.Fmt

/-- A block with its checksum. -/
def block (b : Bytes) : Bytes := b ++ num 4 (Lookup3.hash b).toNat

/-! ### Symbol tables -/

/-- An entry of a symbol table: the name is at `offset` of the local heap; `cache` is the cached
symbol table of a group. Symbolic links are left out. -/
structure SymEntry where
  name : Bytes
  offset : Nat
  addr : Nat
  cache : Option (Nat × Nat)

/-- III.C. -/
def SymEntry.bytes (e : SymEntry) : Bytes :=
  num 8 e.offset ++ num 8 e.addr ++
    match e.cache with
    | none => num 4 0 ++ num 4 0 ++ List.replicate 16 0
    | some (b, h) => num 4 1 ++ num 4 0 ++ num 8 b ++ num 8 h

/-- The numbers fit their fields; the name is a C string that is not empty. -/
def SymEntry.OK (e : SymEntry) : Prop :=
  e.addr < 2 ^ 64 ∧ (0 : UInt8) ∉ e.name ∧ e.name ≠ [] ∧
    ∀ c, e.cache = some c → c.1 < 2 ^ 64 ∧ c.2 < 2 ^ 64

/-- III.B "SNOD": a symbol table node. -/
def symNode (es : List SymEntry) : Bytes :=
  [0x53, 0x4e, 0x4f, 0x44] ++ num 1 1 ++ num 1 0 ++ num 2 es.length ++ es.flatMap SymEntry.bytes

/-- III.D "HEAP": a local heap whose names are in a segment elsewhere. -/
def localHeap (size free segment : Nat) : Bytes :=
  [0x48, 0x45, 0x41, 0x50] ++ num 1 0 ++ num 3 0 ++ num 8 size ++ num 8 free ++ num 8 segment

/-- III.A.1 "TREE": a node of a group, without siblings; keys and children, and one more key. -/
def groupNode (level : Nat) (kids : List (Nat × Nat)) (last : Nat) : Bytes :=
  [0x54, 0x52, 0x45, 0x45] ++ num 1 0 ++ num 1 level ++ num 2 kids.length ++ num 8 undefAddr ++
    num 8 undefAddr ++ kids.flatMap (fun k => num 8 k.1 ++ num 8 k.2) ++ num 8 last

/-- The entry is well formed and its name is in the segment of the heap. -/
def SymEntry.In (file : Bytes) (size segment : Nat) (e : SymEntry) : Prop :=
  e.OK ∧ e.offset + e.name.length + 1 ≤ size ∧ At file (segment + e.offset) (e.name ++ [0])

/-- A leaf of the B-tree of a group: key, address and entries of the symbol table node. -/
structure SymLeaf where
  key : Nat
  addr : Nat
  entries : List SymEntry

/-- A symbol table whose B-tree is a single node: names and addresses of the members of the group, in the
order of the table. `filler` is the part of the node that is not in use; a node has space for at least two
children. -/
def SymTable (file : Bytes) (btree heap : Nat) (es : List (Bytes × Nat)) : Prop :=
  ∃ (leaves : List SymLeaf) (last : Nat) (filler : Bytes) (size free segment : Nat),
    leaves.length < 65536 ∧ last < 2 ^ 64 ∧ 32 ≤ 16 * leaves.length + filler.length ∧
    At file btree (groupNode 0 (leaves.map fun l => (l.key, l.addr)) last ++ filler) ∧
    free < 2 ^ 64 ∧ segment + size ≤ file.length ∧
    At file heap (localHeap size free segment) ∧
    (∀ l ∈ leaves, l.key < 2 ^ 64 ∧ l.entries.length < 65536 ∧ l.entries ≠ [] ∧
      At file l.addr (symNode l.entries) ∧ ∀ e ∈ l.entries, e.In file size segment) ∧
    es = (leaves.flatMap SymLeaf.entries).map fun e => (e.name, e.addr)

/-! ### Fractal heaps -/

/-- The size of the blocks in a row of the doubling table whose first blocks have `2 ^ a` bytes. -/
def rowSize (a r : Nat) : Nat := 2 ^ (a + (r - 1))

/-- Where a row of four blocks starts in the address space of the heap. -/
def rowStart (a r : Nat) : Nat := if r = 0 then 0 else 4 * 2 ^ (a + (r - 1))

/-- Where a block starts in the address space of the heap. -/
def entryStart (a e : Nat) : Nat := rowStart a (e / 4) + e % 4 * rowSize a (e / 4)

/-- III.G "FHIB": an indirect block with the addresses of its blocks. -/
def fhib (bits header offset : Nat) (addrs : List Nat) : Bytes :=
  [0x46, 0x48, 0x49, 0x42] ++ num 1 0 ++ num 8 header ++ num (bits / 8) offset ++ addrs.flatMap (num 8)

/-- `x` of the address space is `o` bytes behind the start of the direct block at `blk`: blocks of
up to `2 ^ b` bytes are direct, larger ones lead to tables of their own. `addrs` are the addresses
in the table. -/
inductive Located (file : Bytes) (a b bits : Nat) : List Nat → Nat → Nat → Nat → Prop
  | direct {addrs : List Nat} {x e blk : Nat} (he : addrs[e]? = some blk) (hb : blk ≠ undefAddr)
      (hd : rowSize a (e / 4) ≤ 2 ^ b) (h1 : entryStart a e ≤ x)
      (h2 : x < entryStart a e + rowSize a (e / 4)) :
      Located file a b bits addrs x blk (x - entryStart a e)
  | indirect {addrs addrs' : List Nat} {x e tbl blk o n header offset : Nat}
      (he : addrs[e]? = some tbl) (hb : tbl ≠ undefAddr)
      (hd : 2 ^ b < rowSize a (e / 4)) (h1 : entryStart a e ≤ x)
      (h2 : x < entryStart a e + rowSize a (e / 4))
      (hn : rowStart a n = rowSize a (e / 4)) (hl : addrs'.length = 4 * n)
      (ha : ∀ y ∈ addrs', y < 2 ^ 64)
      (hat : At file tbl (block (fhib bits header offset addrs')))
      (h : Located file a b bits addrs' (x - entryStart a e) blk o) :
      Located file a b bits addrs x blk o

/-- III.G "FRHP" without filters. `nums` are twelve numbers about huge objects, tiny objects and free
space. -/
def frhp (idLen flags maxSize : Nat) (nums : List Nat) (a b bits startRows root rows : Nat) : Bytes :=
  [0x46, 0x52, 0x48, 0x50] ++ num 1 0 ++ num 2 idLen ++ num 2 0 ++ num 1 flags ++ num 4 maxSize ++
    nums.flatMap (num 8) ++ num 2 4 ++ num 8 (2 ^ a) ++ num 8 (2 ^ b) ++ num 2 bits ++ num 2 startRows ++
    num 8 root ++ num 2 rows

/-- A fractal heap at an address: a single direct block, or a table. -/
def HeapAt (file : Bytes) (addr a b bits : Nat) (addrs : List Nat) : Prop :=
  ∃ (idLen flags maxSize : Nat) (nums : List Nat) (startRows root rows : Nat),
    idLen < 65536 ∧ flags < 256 ∧ maxSize < 2 ^ 32 ∧ nums.length = 12 ∧ (∀ y ∈ nums, y < 2 ^ 64) ∧
    startRows < 65536 ∧ root < 2 ^ 64 ∧ a ≤ b ∧ b ≤ bits ∧
    At file addr (block (frhp idLen flags maxSize nums a b bits startRows root rows)) ∧
    ((rows = 0 ∧ addrs = [root]) ∨
      (0 < rows ∧ rowStart a rows ≤ 2 ^ bits ∧ addrs.length = 4 * rows ∧ (∀ y ∈ addrs, y < 2 ^ 64) ∧
        ∃ header offset, At file root (block (fhib bits header offset addrs))))

/-- The object with this offset in the heap. -/
def HeapObject (file : Bytes) (a b bits : Nat) (addrs : List Nat) (x : Nat) (obj : Bytes) : Prop :=
  ∃ blk o, Located file a b bits addrs x blk o ∧ At file (blk + o) obj

/-! ### B-trees of version 2 -/

/-- Bytes needed for numbers up to `n`. -/
def bytesFor (n : Nat) : Nat := Nat.log2 n / 8 + 1

/-- Bytes for the number of records of a child: what the number of records of a full leaf needs. -/
def recWidth (ns rs : Nat) : Nat := bytesFor ((ns - 10) / rs)

/-- How many records fit in a node of this depth, and in the tree below it. -/
def caps (ns rs : Nat) : Nat → Nat × Nat
  | 0 => ((ns - 10) / rs, (ns - 10) / rs)
  | d + 1 =>
    let ptr := 8 + recWidth ns rs + if d = 0 then 0 else bytesFor (caps ns rs d).2
    let m := (ns - 10 - ptr) / (rs + ptr)
    (m, (m + 1) * (caps ns rs d).2 + m)

/-- Bytes for the number of records below a child of this depth. -/
def totWidth (ns rs d : Nat) : Nat := bytesFor (caps ns rs d).2

/-- III.A.2 "BTLF". -/
def leafNode (ty : Nat) (recs : List Bytes) : Bytes :=
  [0x42, 0x54, 0x4c, 0x46] ++ num 1 0 ++ num 1 ty ++ recs.flatten

/-- A child of an internal node: address, number of records and, if it is not a leaf, number of
records below it. -/
def childPtr (ns rs d : Nat) (k : Nat × Nat × Nat) : Bytes :=
  num 8 k.1 ++ num (recWidth ns rs) k.2.1 ++ if d = 0 then [] else num (totWidth ns rs d) k.2.2

/-- III.A.2 "BTIN": an internal node whose children have depth `d`. -/
def innerNode (ns rs ty d : Nat) (recs : List Bytes) (kids : List (Nat × Nat × Nat)) : Bytes :=
  [0x42, 0x54, 0x49, 0x4e] ++ num 1 0 ++ num 1 ty ++ recs.flatten ++ kids.flatMap (childPtr ns rs d)

/-- The nodes `(address, records, records below)` of this depth are in the file, one after the
other, and hold these records. The records of a node come before those below it. -/
inductive Forest (file : Bytes) (ns rs ty : Nat) :
    Nat → List (Nat × Nat × Nat) → List Bytes → Prop
  | nil {d : Nat} : Forest file ns rs ty d [] []
  | leaf {addr : Nat} {recs rest : List Bytes} {kids : List (Nat × Nat × Nat)}
      (hr : ∀ r ∈ recs, r.length = rs) (hn : recs.length ≤ (caps ns rs 0).1)
      (hat : At file addr (block (leafNode ty recs)))
      (h : Forest file ns rs ty 0 kids rest) :
      Forest file ns rs ty 0 ((addr, recs.length, recs.length) :: kids) (recs ++ rest)
  | node {d addr : Nat} {own below rest : List Bytes} {kids' kids : List (Nat × Nat × Nat)}
      (hr : ∀ r ∈ own, r.length = rs) (hn : own.length ≤ (caps ns rs (d + 1)).1) (h0 : own ≠ [])
      (hk : kids'.length = own.length + 1) (ha : ∀ k ∈ kids', k.1 < 2 ^ 64)
      (hat : At file addr (block (innerNode ns rs ty d own kids')))
      (hb : Forest file ns rs ty d kids' below)
      (h : Forest file ns rs ty (d + 1) kids rest) :
      Forest file ns rs ty (d + 1) ((addr, own.length, own.length + below.length) :: kids)
        (own ++ below ++ rest)

/-- III.A.2 "BTHD". -/
def bthd (ty ns rs depth split merge root n total : Nat) : Bytes :=
  [0x42, 0x54, 0x48, 0x44] ++ num 1 0 ++ num 1 ty ++ num 4 ns ++ num 2 rs ++ num 2 depth ++ num 1 split ++
    num 1 merge ++ num 8 root ++ num 2 n ++ num 8 total

/-- A B-tree of version 2 with these records, of a depth and node size for which numbers of records
take one byte and numbers of records below a node take two. -/
def BTree2 (file : Bytes) (addr ty rs : Nat) (recs : List Bytes) : Prop :=
  ∃ ns depth split merge root n : Nat,
    ns < 2 ^ 32 ∧ 0 < rs ∧ depth < 65536 ∧ split < 256 ∧ merge < 256 ∧ root < 2 ^ 64 ∧
    recWidth ns rs = 1 ∧ (∀ d, 0 < d → d < depth → totWidth ns rs d = 2) ∧
    At file addr (block (bthd ty ns rs depth split merge root n recs.length)) ∧
    Forest file ns rs ty depth [(root, n, recs.length)] recs

/-! ### Dense storage -/

/-- A link in a heap, with the record for it: the hash of the name and the place in the heap. -/
structure DenseLink where
  hash : Nat
  offset : Nat
  w : Nat
  typeStored : Bool
  order : Option Nat
  charset : Option Nat
  name : Bytes
  addr : Nat

/-- The link as it is in the heap. -/
def DenseLink.link (l : DenseLink) : Message :=
  .link l.w l.typeStored l.order l.charset l.name l.addr

/-- A record of type 5 with a heap ID of seven bytes. -/
def DenseLink.record (l : DenseLink) : Bytes :=
  num 4 l.hash ++ num 1 0 ++ num 4 l.offset ++ num 2 l.link.bytes.length

/-- The links of a group in dense storage: names, addresses and creation orders. -/
def DenseLinks (file : Bytes) (heap btree : Nat) (ls : List (Bytes × Nat × Nat)) : Prop :=
  ∃ (a b : Nat) (addrs : List Nat) (rs : List DenseLink),
    HeapAt file heap a b 32 addrs ∧ BTree2 file btree 5 11 (rs.map DenseLink.record) ∧
    (∀ r ∈ rs, r.hash < 2 ^ 32 ∧ r.offset < 2 ^ 32 ∧ r.link.OK ∧ r.link.bytes.length < 65536 ∧
      HeapObject file a b 32 addrs r.offset r.link.bytes) ∧
    ls = rs.map fun r => (r.name, r.addr, r.order.getD 0)

/-- An attribute in a heap, with the record for it: the place in the heap, message flags, creation
order and the hash of the name. -/
structure DenseAttr where
  offset : Nat
  flags : Nat
  order : Nat
  hash : Nat
  version : Nat
  name : Bytes
  type : DType
  space : Space
  data : Bytes
  value : AttrData

/-- The attribute as it is in the heap. -/
def DenseAttr.attr (l : DenseAttr) : Message :=
  .attr l.version l.name l.type l.space l.data l.value

/-- A record of type 8 with a heap ID of eight bytes. -/
def DenseAttr.record (l : DenseAttr) : Bytes :=
  num 1 0 ++ num 5 l.offset ++ num 2 l.attr.bytes.length ++ num 1 l.flags ++ num 4 l.order ++ num 4 l.hash

/-- The attributes of an object in dense storage. None of them is shared. -/
def DenseAttrs (file : Bytes) (heap btree : Nat) (as : List Attr) : Prop :=
  ∃ (a b : Nat) (addrs : List Nat) (rs : List DenseAttr),
    HeapAt file heap a b 40 addrs ∧ BTree2 file btree 8 17 (rs.map DenseAttr.record) ∧
    (∀ r ∈ rs, r.offset < 2 ^ 40 ∧ r.flags < 256 ∧ r.flags / 2 % 2 = 0 ∧ r.order < 2 ^ 32 ∧ r.hash < 2 ^ 32 ∧
      r.attr.OK ∧ r.attr.bytes.length < 65536 ∧
      HeapObject file a b 40 addrs r.offset r.attr.bytes) ∧
    as = rs.map fun r => ⟨r.name, r.space.dims, r.type.dt, r.value⟩

end Verif.H5.Fmt
