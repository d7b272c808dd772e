import Verif.Model.H5Heap
/-!
Specification for the global heap: the ways objects get into it, and what is to be found.
-/
namespace Verif.H5

/-- What the writer puts in its heap: a string, the bytes of an element of variable length, or a
reference to a dimension. -/
inductive HeapOp
  | string (s : Bytes)
  | data (b : Bytes)
  | dimRef (dim : Bytes)
deriving Repr

/-- One of these calls: the new heap and the index the writer will use for it. For strings and
dimensions this is what it later finds in its table. -/
def HeapOp.run (dimAddr : Bytes → Nat) (h : Heap) : HeapOp → Heap × Option Nat
  | .string s => ((h.addString s), (h.addString s).indices.get s)
  | .data b => ((h.addObject b).1, some (h.addObject b).2)
  | .dimRef d =>
    ((h.addDimRef d (dimAddr d)), (h.addDimRef d (dimAddr d)).indices.get (dimRefKey d))

/-- A sequence of calls. -/
def runOps (dimAddr : Bytes → Nat) : Heap → List HeapOp → Heap × List (Option Nat)
  | h, [] => (h, [])
  | h, op :: ops =>
    let r := op.run dimAddr h
    let rest := runOps dimAddr r.1 ops
    (rest.1, r.2 :: rest.2)

/-- The bytes that are to be found for a call. -/
def HeapOp.bytes (dimAddr : Bytes → Nat) : HeapOp → Bytes
  | .string s => s
  | .data b => b
  | .dimRef d => leEnc 8 (dimAddr d)

/-- A string that is not in the form the writer uses for dimensions. -/
def HeapOp.Plain : HeapOp → Prop
  | .string s => ∀ d, s ≠ dimRefKey d
  | _ => True

/-- `h'` has the objects of `h` at the same indices, and knows their strings. -/
def Heap.Le (h h' : Heap) : Prop := (∃ t, h'.objects = h.objects ++ t) ∧
  ∀ k i, h.indices.get k = some i → h'.indices.get k = some i

/-- An empty heap. -/
def Heap.empty : Heap := ⟨0, [], []⟩

end Verif.H5
