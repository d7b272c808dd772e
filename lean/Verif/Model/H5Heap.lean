import Verif.Model.H5Super
import Verif.Model.H5Msg
/-!
The global heap: netcdf/hdf5/hdf5writer.go:42-46, 676-682, 944-998 and
netcdf/hdf5/hdf5.go:1142-1195.
-/
namespace Verif.H5

/-- netcdf/hdf5/hdf5writer.go:42-46 `h5GlobalHeap`. -/
structure Heap where
  addr : Nat
  objects : List Bytes
  indices : GoMap Nat
deriving Repr

/-- netcdf/hdf5/hdf5writer.go:676-682 `addStringToHeap`. -/
def Heap.addString (h : Heap) (s : Bytes) : Heap :=
  match h.indices.get s with
  | some _ => h
  | none => { h with objects := h.objects ++ [s], indices := h.indices.set s (h.objects.length + 1) }

/-- netcdf/hdf5/hdf5writer.go:878-880, 939-941: an element of variable length; the index is
recorded by the caller. -/
def Heap.addObject (h : Heap) (b : Bytes) : Heap × Nat :=
  ({ h with objects := h.objects ++ [b] }, h.objects.length + 1)

/-- The key of a reference to a dimension. -/
def dimRefKey (dim : Bytes) : Bytes := ascii "__dimref:" ++ dim

/-- netcdf/hdf5/hdf5writer.go:263-276: the reference to the dimension scale at `addr`. -/
def Heap.addDimRef (h : Heap) (dim : Bytes) (addr : Nat) : Heap :=
  match h.indices.get (dimRefKey dim) with
  | some _ => h
  | none =>
    { h with objects := h.objects ++ [leEnc 8 addr],
             indices := h.indices.set (dimRefKey dim) (h.objects.length + 1) }

/-- netcdf/hdf5/hdf5writer.go:962-972: one object, at index `i + 1`. -/
def heapObject (buf : Bytes) (i : Nat) (obj : Bytes) : Bytes :=
  writePadded (buf ++ leEnc 2 (i + 1) ++ leEnc 2 0 ++ leEnc 4 0 ++ leEnc 8 obj.length) obj

/-- netcdf/hdf5/hdf5writer.go:962-972: the objects from index `i + 1`. -/
def heapObjects : Bytes → Nat → List Bytes → Bytes
  | buf, _, [] => buf
  | buf, i, o :: os => heapObjects (heapObject buf i o) (i + 1) os

/-- netcdf/hdf5/hdf5writer.go:944-998 `writeGlobalHeap`: the buffer and the address of the heap. -/
def writeGlobalHeap (buf : Bytes) (objs : List Bytes) : Bytes × Nat :=
  let buf := buf ++ pad8 buf.length
  let addr := buf.length
  let buf := buf ++ ascii "GCOL" ++ [1] ++ [0, 0, 0]
  let sizeAddr := buf.length
  let buf := buf ++ leEnc 8 0
  let buf := heapObjects buf 0 objs
  let currentSize := buf.length - addr
  let totalSize := if currentSize + 16 < 4096 then 4096 else currentSize + 16
  let freeSize := totalSize - currentSize
  let buf := buf ++ leEnc 2 0 ++ leEnc 2 0 ++ leEnc 4 0 ++ leEnc 8 freeSize ++
    List.replicate (freeSize - 16) 0
  (putAt buf sizeAddr (leEnc 8 (buf.length - addr)), addr)

/-- A collection in the cache: `map[uint32][]byte`, the newest entry first. -/
abbrev Coll := List (Nat × Bytes)

/-- One round of the loop of netcdf/hdf5/hdf5.go:1164-1189: `none` to stop, otherwise the bytes
left in the collection and the object, if it has bytes. -/
def heapStep (csize : Nat) : P (Option (Nat × Option (Nat × Bytes))) := do
  let hoi ← read16
  if hoi = 0 then pure none
  else do
    let rc ← read16
    checkVal 0 rc
    let zero ← read32
    checkVal 0 zero
    let osize ← read64
    P.assert (decide (osize ≤ csize - 16)) .assertFail
    if 0 < osize then do
      let asize := (osize + 7) % 2 ^ 64 / 8 * 8
      P.assert (decide (asize ≤ csize - 16)) .assertFail
      let b ← rdN osize
      skip (asize - osize)
      pure (some (csize - 16 - asize, some (hoi, b)))
    else pure (some (csize - 16, none))

/-- netcdf/hdf5/hdf5.go:1164-1189: the loop. What was cached before an error stays in the cache.
The fuel is never used up when it is more than the bytes of the reader. -/
def heapLoop : Nat → Nat → S → Coll → Coll × Res Unit
  | 0, _, _, acc => (acc, .panic)
  | f + 1, csize, s, acc =>
    if csize < 16 then (acc, .ok ())
    else
      match heapStep csize s with
      | .err e => (acc, .err e)
      | .panic => (acc, .panic)
      | .ok (none, _) => (acc, .ok ())
      | .ok (some (c, some e), s) => heapLoop f c s (e :: acc)
      | .ok (some (c, none), s) => heapLoop f c s acc

/-- netcdf/hdf5/hdf5.go:1156-1161: the header of a collection. -/
def heapHeader : P Nat := do
  checkMagic 4 (ascii "GCOL")
  let version ← read8
  checkVal 1 version
  checkZeroes 3
  read64

/-- netcdf/hdf5/hdf5.go:1152-1189: parse the collection at `addr`. -/
def heapParse (file : Bytes) (addr : Nat) : Coll × Res Unit :=
  match newSeek file addr 16 with
  | .err e => ([], .err e)
  | .panic => ([], .panic)
  | .ok s =>
    match heapHeader s with
    | .err e => ([], .err e)
    | .panic => ([], .panic)
    | .ok (csize, s) =>
      let csize := (csize + (2 ^ 64 - 16)) % 2 ^ 64
      match newSeek file ((addr + s.pos) % 2 ^ 64) (i64 csize) with
      | .err e => ([], .err e)
      | .panic => ([], .panic)
      | .ok s => heapLoop (s.rem.length + 1) csize s []

/-- The object at an index, without a cache. `none` is a nil reader with size 0. -/
def heapLookup (file : Bytes) (addr idx : Nat) : Res (Option Bytes) :=
  match heapParse file addr with
  | (c, .ok ()) => .ok (c.lookup idx)
  | (_, .err e) => .err e
  | (_, .panic) => .panic

/-- `h5.heapCache`: `map[uint64]map[uint32][]byte`. -/
abbrev HeapCache := List (Nat × Coll)

/-- netcdf/hdf5/hdf5.go:1142-1195 `readGlobalHeap`: the new cache and the outcome. The entry of the
cache is made before the collection is parsed and stays when that fails. -/
def readGlobalHeap (file : Bytes) (cache : HeapCache) (addr idx : Nat) :
    HeapCache × Res (Option Bytes) :=
  match cache.lookup addr with
  | some c => (cache, .ok (c.lookup idx))
  | none =>
    match heapParse file addr with
    | (c, .ok ()) => ((addr, c) :: cache, .ok (c.lookup idx))
    | (c, .err e) => ((addr, c) :: cache, .err e)
    | (c, .panic) => ((addr, c) :: cache, .panic)

/-- A sequence of calls of `readGlobalHeap` on one file. -/
def heapCalls (file : Bytes) : HeapCache → List (Nat × Nat) → List (Res (Option Bytes))
  | _, [] => []
  | cache, (addr, idx) :: cs =>
    let r := readGlobalHeap file cache addr idx
    r.2 :: heapCalls file r.1 cs

end Verif.H5
