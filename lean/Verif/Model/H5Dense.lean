import Verif.Model.H5Super
import Verif.Model.H5Msg
/-!
Places outside object headers where groups keep their links and objects their attributes: the local
heap of old groups (netcdf/hdf5/hdf5.go:1270-1282), the fractal heap (636-696, 1027-1100, 1197-1268)
and the constants of version 2 B-trees. The parts that lead to other objects are in H5Object.lean.
-/
namespace Verif.H5

/-- A reader over a part of the file; an error when `newSeek` refuses it. -/
def seekRun {α : Type} (file : Bytes) (addr : Nat) (size : Int) (p : P α) : Res α :=
  match newSeek file addr size with
  | .err e => .err e
  | .panic => .panic
  | .ok s => (p s).map (·.1)

/-! ### Old groups -/

/-- "HEAP" -/
def heapSig : Bytes := [0x48, 0x45, 0x41, 0x50]
/-- "SNOD" -/
def snodSig : Bytes := [0x53, 0x4e, 0x4f, 0x44]
/-- "TREE" -/
def treeSig : Bytes := [0x54, 0x52, 0x45, 0x45]

/-- netcdf/hdf5/hdf5.go:1270-1282 `readLocalHeap`: the name at an offset of the heap. A size of
zero makes `newSeek` take the rest of the file. -/
def readLocalHeap (file : Bytes) (addr offset : Nat) : Res Bytes := do
  let (dsSize, dsAddr) ← seekRun file addr 32 (do
    checkMagic 4 heapSig
    let v ← read8
    checkVal 0 v
    checkZeroes 3
    let dsSize ← read64
    let _ ← read64
    let dsAddr ← read64
    pure (dsSize, dsAddr))
  seekRun file ((dsAddr + offset) % 2 ^ 64) (wrap64 (i64 dsSize - i64 offset)) (readName 0)

/-- netcdf/hdf5/hdf5.go:1298-1334, one entry of a symbol table: the name and the address of the
object header. Symbolic links are refused. -/
def symEntry (file : Bytes) (heap : Nat) : P (Bytes × Nat) := do
  let r ← remLen
  P.assert (decide (24 ≤ r)) .assertFail
  let offset ← read64
  let name ← P.lift (readLocalHeap file heap offset)
  P.assert (decide (0 < name.length)) .assertFail
  let addr ← read64
  let cacheType ← read32
  let z ← read32
  checkVal 0 z
  P.assert (decide (cacheType ≤ 2)) .assertFail
  if cacheType = 0 then do
    let r ← remLen
    P.assert (decide (16 ≤ r)) .assertFail
    checkZeroes 16
    pure (name, addr)
  else if cacheType = 1 then do
    let _ ← read64
    let _ ← read64
    pure (name, addr)
  else do
    let _ ← read32
    checkZeroes 12
    P.fail .linkType

/-- Numbers of eight bytes in pairs, and the first of each pair is dropped: keys and addresses. -/
def readChildren : Nat → P (List Nat)
  | 0 => pure []
  | n + 1 => do
    let _ ← read64
    let a ← read64
    let as ← readChildren n
    pure (a :: as)

/-- netcdf/hdf5/hdf5.go:1351-1381, the first part of `readSymbolTable`: the addresses of the
children of the root node, whatever its level is. -/
def readSymRoot (file : Bytes) (addr : Nat) : Res (List Nat) := do
  let n ← seekRun file addr 52 (do
    checkMagic 4 treeSig
    let nodeType ← read8
    let _ ← read8
    let n ← read16
    let left ← read64
    let right ← read64
    P.assert (left == invalidAddress && right == invalidAddress) .assertFail
    P.assert (nodeType == 0) .assertFail
    pure n)
  seekRun file ((addr + 24) % 2 ^ 64) (16 * n + 8) (do
    let as ← readChildren n
    let _ ← read64
    pure as)

/-! ### Fractal heaps -/

/-- "FRHP" -/
def frhpSig : Bytes := [0x46, 0x52, 0x48, 0x50]
/-- "FHIB" -/
def fhibSig : Bytes := [0x46, 0x48, 0x49, 0x42]
/-- "BTHD" -/
def bthdSig : Bytes := [0x42, 0x54, 0x48, 0x44]
/-- "BTIN" -/
def btinSig : Bytes := [0x42, 0x54, 0x49, 0x4e]
/-- "BTLF" -/
def btlfSig : Bytes := [0x42, 0x54, 0x4c, 0x46]

/-- netcdf/hdf5/hdf5.go `linkInfo` after `readHeap`; the width of the table is always 4 (1240). The
values of the default are those before `readHeap`. -/
structure HeapInfo where
  blockSize : Nat := 0
  maxBlock : Nat := 0
  maxHeap : Nat := 0
  block : List Nat := []
  iBlock : List Nat := []

/-- netcdf/hdf5/hdf5.go:1027-1034 `log2`. -/
def goLog2 (v : Nat) : Int := if v = 0 then -1 else (Nat.log2 v : Int)

/-- netcdf/hdf5/hdf5.go:1060-1067: rows of direct blocks in a full table. -/
def HeapInfo.maxRowsDirect (h : HeapInfo) : Int := goLog2 h.maxBlock - goLog2 h.blockSize + 2

/-- netcdf/hdf5/hdf5.go:1036-1100 `readRootBlock`: the addresses in an indirect block of `nrows`
rows. `nrows*width*8` is computed in 16 bits; a negative capacity makes `make` panic. -/
def readIndirect (file : Bytes) (h : HeapInfo) (bta nrows : Nat) : Res HeapInfo := do
  let bSize := 4 + 1 + 8 + h.maxHeap / 8 + nrows * 4 * 8 % 65536 + 4
  let as ← seekRun file bta bSize (do
    checkMagic 4 fhibSig
    let v ← read8
    checkVal 0 v
    let _ ← read64
    let _ ← read32
    if h.maxHeap = 40 then do
      let _ ← read8
      pure ()
    else pure ()
    if h.maxRowsDirect < 0 ∧ h.maxRowsDirect + 65536 ≤ nrows then P.crash
    else read64s (nrows * 4))
  checkChecksum file bta (bSize - 4)
  let direct := 4 * h.maxRowsDirect.toNat
  pure { h with block := as.take direct, iBlock := as.drop direct }

/-- netcdf/hdf5/hdf5.go:1197-1268 `readHeap`. -/
def readHeap (file : Bytes) (addr : Nat) : Res HeapInfo := do
  let (blockSize, maxBlock, maxHeap, root, rows) ← seekRun file addr 144 (do
    checkMagic 4 frhpSig
    let _ ← read8
    let _ ← read16
    let filterLen ← read16
    checkVal 0 filterLen
    let _ ← read8
    let _ ← read32
    let _ ← read64s 12
    let width ← read16
    checkVal 4 width
    let blockSize ← read64
    let maxBlock ← read64
    let maxHeap ← read16
    P.assert (maxHeap == 32 || maxHeap == 40) .assertFail
    let _ ← read16
    let root ← read64
    let rows ← read16
    pure (blockSize, maxBlock, maxHeap, root, rows))
  checkChecksum file addr 142
  if 0 < rows then readIndirect file ⟨blockSize, maxBlock, maxHeap, [], []⟩ root rows
  else pure ⟨blockSize, maxBlock, maxHeap, [root], []⟩

/-- `a - b` of two `uint64`. -/
def sub64 (a b : Nat) : Nat := (a + (2 ^ 64 - b % 2 ^ 64)) % 2 ^ 64

/-- netcdf/hdf5/hdf5.go:640-656: the first block of a size larger than the offset. The result is the
block, if there is one, and the offset and the block size when the loop ends. -/
def scanDirect (maxBlock : Nat) : List Nat → Nat → Nat → Nat → Option Nat × Nat × Nat
  | [], _, offset, size => (none, offset, size)
  | b :: bs, entry, offset, size =>
    if offset < size ∧ b ≠ invalidAddress then (some b, offset, size)
    else
      let size' := if 1 ≤ entry / 4 ∧ entry % 4 = 3 ∧ size < maxBlock then size * 2 % 2 ^ 64 else size
      scanDirect maxBlock bs (entry + 1) (sub64 offset size) size'

/-- netcdf/hdf5/hdf5.go:666-679: the same for the indirect blocks. -/
def scanIndirect : List Nat → Nat → Nat → Nat → Option Nat × Nat × Nat
  | [], _, offset, size => (none, offset, size)
  | b :: bs, entry, offset, size =>
    if offset < size ∧ b ≠ invalidAddress then (some b, offset, size)
    else
      let size' := if entry % 4 = 3 then size * 2 % 2 ^ 64 else size
      scanIndirect bs (entry + 1) (sub64 offset size) size'

/-- netcdf/hdf5/hdf5.go:636-696 `doDoubling` up to the call of `callback`: the address of the block
with the object at this offset of the heap, and the offset in that block. The recursion through
indirect blocks has no bound in Go; here it has a fuel. -/
def locate (file : Bytes) : Nat → HeapInfo → Nat → Res (Nat × Nat)
  | 0, _, _ => .panic
  | fuel + 1, h, offset =>
    match scanDirect h.maxBlock h.block 0 offset h.blockSize with
    | (some b, offset, _) => .ok (b, offset)
    | (none, offset, size) =>
      match scanIndirect h.iBlock 0 offset (size * 2 % 2 ^ 64) with
      | (none, _, _) => .err .assertFail
      | (some b, offset, size) => do
        let nrows := ((goLog2 size - goLog2 (h.blockSize * 4 % 2 ^ 64) + 1) % 65536).toNat
        let h' ← readIndirect file h b nrows
        locate file fuel h' offset

end Verif.H5
