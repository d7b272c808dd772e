import Verif.Spec.H5Index
/-!
Arrays, their elements and their chunks. Nothing here depends on the model.
-/
namespace Verif.H5

/-- All indices of an array of shape `dims`, the last one running fastest. -/
def indices : List Nat → List (List Nat)
  | [] => [[]]
  | d :: ds => (List.range d).flatMap fun i => (indices ds).map (i :: ·)

/-- Element by element. -/
def addIx (a b : List Nat) : List Nat := List.zipWith (· + ·) a b
/-- Element by element. -/
def mulIx (a b : List Nat) : List Nat := List.zipWith (· * ·) a b

/-- How many chunks there are along each dimension. -/
def gridShape (dims layout : List Nat) : List Nat := List.zipWith (fun d l => (d + l - 1) / l) dims layout

/-- The bytes of an array whose elements have the bytes `cell`. -/
def rowMajor (dims : List Nat) (cell : List Nat → Bytes) : Bytes := (indices dims).flatMap cell

/-- The bytes of the chunk with number `c` along each dimension; every chunk has the shape `layout`.
A chunk at the edge has elements outside of the array. -/
def chunkData (layout : List Nat) (cell : List Nat → Bytes) (c : List Nat) : Bytes :=
  (indices layout).flatMap fun δ => cell (addIx (mulIx c layout) δ)

/-- The array with the elements `val`. -/
def tabulate (base : GoTy) : List Nat → (List Nat → GoVal) → GoVal
  | [], val => val []
  | d :: ds, val => .slice (tyNest base ds) ((List.range d).map fun i => tabulate base ds fun is => val (i :: is))

/-- A shape with a chunk shape for which nothing overflows. -/
structure Geo (dims layout : List Nat) (dtLen : Nat) : Prop where
  len : layout.length = dims.length
  ne : dims ≠ []
  lay : ∀ l ∈ layout, 0 < l
  dlt : ∀ d ∈ dims, d < 2 ^ 62
  llt : ∀ l ∈ layout, l < 2 ^ 62
  dt : 0 < dtLen
  chunk : prod layout * dtLen < 2 ^ 63
  size : prod (gridShape dims layout) * prod layout * dtLen < 2 ^ 63

/-- The chunk of shape `layout` whose first element is `offsets` has the element `idx`. -/
def InChunk : List Nat → List Nat → List Nat → Prop
  | [], [], [] => True
  | l :: ls, o :: os, i :: is => (o ≤ i ∧ i < o + l) ∧ InChunk ls os is
  | _, _, _ => False

/-- One chunk covers each dimension but the last. -/
def Covered : List Nat → List Nat → Prop
  | d :: d' :: ds, l :: l' :: ls => d ≤ l ∧ Covered (d' :: ds) (l' :: ls)
  | _, _ => True

/-- Stripes of chunks along the last dimension are in the order of the elements: the chunks have
length one along a dimension, or one chunk covers each of the later dimensions but the last. This is
always so with one or two dimensions. -/
def StripesInOrder : List Nat → List Nat → Prop
  | d :: d' :: ds, l :: l' :: ls =>
    (l = 1 ∨ Covered (d' :: ds) (l' :: ls)) ∧ StripesInOrder (d' :: ds) (l' :: ls)
  | _, _ => True

end Verif.H5
