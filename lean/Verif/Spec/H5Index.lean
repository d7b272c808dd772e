import Verif.Spec.H5Object
import Verif.Spec.Shape
/-!
The index of the chunks of a variable as it is stored: a tree of nodes whose leaves list chunks.
HDF5 File Format Specification, III.A.1 (version 1 B-trees, node type 1).
-/
namespace Verif.H5

/-- The number of the element `idx` of an array of shape `dims`, in row-major order. -/
def rowIndex : List Nat → List Nat → Nat
  | _ :: ds, i :: is => i * prod ds + rowIndex ds is
  | _, _ => 0

/-- `idx` is an index of an array of shape `dims`. -/
def InRange : List Nat → List Nat → Prop
  | [], [] => True
  | d :: ds, i :: is => i < d ∧ InRange ds is
  | _, _ => False

/-- A key of the index; `offsets` is the first element of a chunk. -/
structure Key where
  size : Nat
  mask : Nat
  offsets : List Nat

/-- A stored chunk: `size` bytes at `addr`; `offsets` is its first element. -/
structure Chunk where
  size : Nat
  mask : Nat
  offsets : List Nat
  addr : Nat
deriving DecidableEq

mutual
/-- A node: a list of chunks and one more key, or a list of other nodes, each with its key and its
address, and one more key. -/
inductive Index
  | leaf (chunks : List Chunk) (last : Key)
  | node (level : Nat) (kids : Kids)
/-- The nodes below a node. -/
inductive Kids
  | last (key : Key)
  | cons (key : Key) (addr : Nat) (child : Index) (rest : Kids)
end

mutual
/-- All chunks, in order. -/
def Index.chunks : Index → List Chunk
  | .leaf cs _ => cs
  | .node _ kids => kids.chunks
/-- All chunks, in order. -/
def Kids.chunks : Kids → List Chunk
  | .last _ => []
  | .cons _ _ t rest => t.chunks ++ rest.chunks
end

/-- The number of nodes. -/
def Kids.count : Kids → Nat
  | .last _ => 0
  | .cons _ _ _ rest => rest.count + 1

/-- The first key. -/
def Kids.first : Kids → Key
  | .last k => k
  | .cons k _ _ _ => k

/-- A key as it is stored. -/
def keyBytes (k : Key) : Bytes :=
  leEnc 4 k.size ++ (leEnc 4 k.mask ++ (k.offsets.flatMap (leEnc 8) ++ leEnc 8 0))

/-- The key and the address of a chunk. -/
def chunkBytes (c : Chunk) : Bytes := keyBytes ⟨c.size, c.mask, c.offsets⟩ ++ leEnc 8 c.addr

/-- The keys and addresses of the nodes below. -/
def Kids.bytes : Kids → Bytes
  | .last k => keyBytes k
  | .cons k a _ rest => (keyBytes k ++ leEnc 8 a) ++ rest.bytes

/-- The first 24 bytes of a node. -/
def nodeHead (level n left right : Nat) : Bytes :=
  ascii "TREE" ++ (leEnc 1 1 ++ (leEnc 1 level ++ (leEnc 2 n ++ (leEnc 8 left ++ leEnc 8 right))))

/-- The numbers of a key fit their fields; there is one offset per dimension. -/
def KeyOK (rank : Nat) (k : Key) : Prop :=
  k.size < 2 ^ 32 ∧ k.mask < 2 ^ 32 ∧ k.offsets.length = rank ∧ ∀ o ∈ k.offsets, o < 2 ^ 64

/-- The numbers of a chunk fit their fields. -/
def ChunkOK (rank : Nat) (c : Chunk) : Prop :=
  KeyOK rank ⟨c.size, c.mask, c.offsets⟩ ∧ c.addr < 2 ^ 64

/-- The top node has no siblings; the other nodes may have any. -/
def Siblings (top : Bool) (left right : Nat) : Prop :=
  left < 2 ^ 64 ∧ right < 2 ^ 64 ∧ (top = true → left = 2 ^ 64 - 1 ∧ right = 2 ^ 64 - 1)

mutual
/-- The index is stored in the file, its node at `addr`. -/
def Index.Stored (file : Bytes) (rank : Nat) : Bool → Nat → Index → Prop
  | top, addr, .leaf cs last =>
    cs.length < 65535 ∧ KeyOK rank last ∧ (∀ c ∈ cs, ChunkOK rank c) ∧
      ∃ left right, Siblings top left right ∧
        At file addr (nodeHead 0 cs.length left right ++ (cs.flatMap chunkBytes ++ keyBytes last))
  | top, addr, .node level kids =>
    0 < level ∧ level < 256 ∧ kids.count < 65535 ∧
      (∃ left right, Siblings top left right ∧
        At file addr (nodeHead level kids.count left right ++ kids.bytes)) ∧
      kids.Stored file rank
/-- The nodes below a node are stored. -/
def Kids.Stored (file : Bytes) (rank : Nat) : Kids → Prop
  | .last k => KeyOK rank k
  | .cons k a t rest => KeyOK rank k ∧ a < 2 ^ 64 ∧ t.Stored file rank false a ∧ rest.Stored file rank
end

/-- Lexicographic order. -/
def lexLt : List Nat → List Nat → Prop
  | a :: as, b :: bs => a < b ∨ (a = b ∧ lexLt as bs)
  | _, _ => False

/-- Lexicographic order. -/
def lexLe (a b : List Nat) : Prop := a = b ∨ lexLt a b

/-- The chunk has bytes between `first` and `last`, when it starts at position `pos` of its offsets
and has `len` bytes. -/
def overlaps (pos : List Nat → Nat) (len first last : Nat) (c : Chunk) : Bool :=
  decide (pos c.offsets < last) && decide (first < pos c.offsets + len)

mutual
/-- The keys of the nodes are in order: the key of a node is an index of the array, and every chunk
below the node is not before this key and before the next one. -/
def Index.Sorted (dims : List Nat) : Index → Prop
  | .leaf _ _ => True
  | .node _ kids => kids.Sorted dims
/-- The same for the nodes below a node. -/
def Kids.Sorted (dims : List Nat) : Kids → Prop
  | .last _ => True
  | .cons k _ t rest =>
    (∀ c ∈ t.chunks, InRange dims k.offsets ∧ lexLe k.offsets c.offsets ∧ lexLt c.offsets rest.first.offsets) ∧
      t.Sorted dims ∧ rest.Sorted dims
end

mutual
/-- The number of levels. -/
def Index.depth : Index → Nat
  | .leaf _ _ => 1
  | .node _ kids => kids.depth + 1
/-- The number of levels. -/
def Kids.depth : Kids → Nat
  | .last _ => 0
  | .cons _ _ t rest => max t.depth rest.depth
end

mutual
/-- All keys. -/
def Index.keys : Index → List Key
  | .leaf _ last => [last]
  | .node _ kids => kids.keys
/-- All keys. -/
def Kids.keys : Kids → List Key
  | .last k => [k]
  | .cons k _ t rest => k :: (t.keys ++ rest.keys)
end

end Verif.H5
