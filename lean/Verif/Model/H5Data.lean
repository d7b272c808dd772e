import Verif.Model.H5Value
import Verif.Model.H5Object
import Verif.Model.H5Filters
/-!
The data of a variable: netcdf/hdf5/hdf5.go:933-1025, 2476-2760 and netcdf/hdf5/readers.go:338-542.

The Go code builds readers that are read later; here the bytes are computed at once. So an error in
a part that is not asked for (the sum of a chunk whose end is not read, damaged compressed data) is
an error here and not there. Decompression (`compress/zlib`) is a parameter.
-/
namespace Verif.H5

/-- An `int64` or the result of an unsigned subtraction as `uint64`. -/
def u64 (x : Int) : Nat := (x % 2 ^ 64).toNat

/-- netcdf/hdf5/hdf5.go:193-200 `dataBlock`: `src` has `rawData`, or `offset` and `length`. -/
structure DBlock where
  src : Block
  dsLength : Nat
  mask : Nat := 0
  offsets : List Nat := []
deriving DecidableEq, Repr

/-- netcdf/hdf5/hdf5.go:1665-1678: the blocks of compact and contiguous layouts. -/
def Block.toD : Block → DBlock
  | .raw b => { src := .raw b, dsLength := b.length }
  | .at a n => { src := .at a n, dsLength := n }

/-! ### Sizes -/

/-- A product of `uint64`s. -/
def prod64 (xs : List Nat) : Nat := xs.foldl (fun a b => a * b % 2 ^ 64) 1

/-- The number of chunks along each dimension, rounded up (`uint64`); a chunk length of zero is a
run-time panic, and so is a dimension without chunk length. -/
def gridOf : List Nat → List Nat → Res (List Nat)
  | [], _ => .ok []
  | _ :: _, [] => .panic
  | d :: ds, l :: ls =>
    if l = 0 then .panic
    else
      match gridOf ds ls with
      | .ok gs => .ok ((d + l + (2 ^ 64 - 1)) % 2 ^ 64 / l :: gs)
      | .err e => .err e
      | .panic => .panic

/-- netcdf/hdf5/readers.go:358-370 `calcAttrSize`. -/
def calcAttrSize (dims layout : List Nat) (dtLen : Nat) : Res Nat :=
  if layout = [] then .ok (prod64 dims * dtLen % 2 ^ 64)
  else (gridOf dims layout).map fun g => prod64 g * prod64 layout % 2 ^ 64 * dtLen % 2 ^ 64

/-- netcdf/hdf5/readers.go:381-402 `calculateFlatOffset`: where a chunk starts, when the chunks are
one after the other. -/
def flatOffset (offsets dims layout : List Nat) (dtLen : Nat) : Res Nat :=
  if offsets.length < dims.length then .panic
  else
    (gridOf dims layout).map fun g =>
      let idx := (List.range dims.length).foldl (fun a i =>
        (a + offsets.getD i 0 / layout.getD i 0 * prod64 (g.drop (i + 1))) % 2 ^ 64) 0
      idx * prod64 layout % 2 ^ 64 * dtLen % 2 ^ 64

/-- netcdf/hdf5/hdf5.go:2642-2657 `needsLayoutReader`. -/
def needsLayoutReader (dims layout : List Nat) : Res Bool :=
  if layout = [] then .ok false
  else if dims.length > layout.length ∨ (layout.take dims.length).contains 0 then .panic
  else .ok ((dims.zip layout).any (fun p => p.1 % p.2 != 0) || layout.dropLast.any (· != 1))

/-! ### The index of chunks -/

/-- netcdf/hdf5/hdf5.go:933-945 `calculateFlatOffsetFromKeys`; the lists start with the last
dimension. -/
def keyOffsetRev : List Nat → List Nat → Nat → Nat
  | o :: os, d :: ds, sizes => (o * sizes + keyOffsetRev os ds (sizes * d % 2 ^ 64)) % 2 ^ 64
  | _, _, _ => 0

/-- netcdf/hdf5/hdf5.go:933-945 `calculateFlatOffsetFromKeys`. -/
def keyOffset (offsets dims : List Nat) (dtSize : Nat) : Nat :=
  let rank := min offsets.length dims.length
  keyOffsetRev (offsets.take rank).reverse (dims.take rank).reverse dtSize

/-- netcdf/hdf5/hdf5.go:972-978 `btreeEntry`. -/
structure BEntry where
  size : Nat
  mask : Nat
  offsets : List Nat
  addr : Nat
deriving DecidableEq, Repr

/-- netcdf/hdf5/hdf5.go:984-999: one entry; the last one has no address. -/
def readEntry (rank : Nat) (last : Bool) : P BEntry := do
  let size ← read32
  let mask ← read32
  let offsets ← read64s rank
  let _ ← read64
  if last then pure ⟨size, mask, offsets, 0⟩
  else do
    let addr ← read64
    pure ⟨size, mask, offsets, addr⟩

/-- netcdf/hdf5/hdf5.go:984-999: `n` entries and one more. -/
def readEntries (rank : Nat) : Nat → P (List BEntry)
  | 0 => do
    let e ← readEntry rank true
    pure [e]
  | n + 1 => do
    let e ← readEntry rank false
    let es ← readEntries rank n
    pure (e :: es)

/-- netcdf/hdf5/hdf5.go:1001-1012: is the entry with the key `low` before the key `high` skipped? -/
def pruned (first last low high : Nat) : Bool := decide (last ≤ low) || (decide (0 < high) && decide (high ≤ first))

/-- netcdf/hdf5/hdf5.go:956-966, the start of a node: the level and the number of entries. -/
def readNodeHead (isTop : Bool) : P (Nat × Nat) := do
  checkMagic 4 (ascii "TREE")
  let ty ← read8
  checkVal 1 ty
  let level ← read8
  let n ← read16
  let left ← read64
  let right ← read64
  P.assert (!isTop || (left == invalidAddress && right == invalidAddress)) .assertFail
  pure (level, n)

/-- netcdf/hdf5/hdf5.go:1001-1024: the loop over the entries. `sub` reads a node of a lower level. -/
def nodeBlocks (sub : Nat → Res (List DBlock)) (dims : List Nat) (dtSize nElems level first last : Nat) :
    List BEntry → Res (List DBlock)
  | e :: e' :: es =>
    let low := keyOffset e.offsets dims dtSize
    let high := if level = 0 then (low + nElems * dtSize) % 2 ^ 64 else keyOffset e'.offsets dims dtSize
    if pruned first last low high then nodeBlocks sub dims dtSize nElems level first last (e' :: es)
    else do
      let bs ← if level = 0 then
          pure [⟨.at e.addr e.size, nElems * dtSize % 2 ^ 64, e.mask, e.offsets⟩]
        else sub e.addr
      let bs' ← nodeBlocks sub dims dtSize nElems level first last (e' :: es)
      pure (bs ++ bs')
  | _ => .ok []

/-- netcdf/hdf5/hdf5.go:953-1025 `readBTreeNodeAny`. A node with 65535 entries makes the `uint16`
length of the list wrap to zero, and the first entry is out of range. The recursion has no bound in the code; here
running out of fuel is `panic`. -/
def readBTree (file : Bytes) (dims : List Nat) (dtSize nElems dimensionality first last : Nat) :
    Nat → Bool → Nat → Res (List DBlock)
  | 0, _, _ => .panic
  | fuel + 1, isTop, addr => do
    let (level, n) ← seekRun file addr 24 (readNodeHead isTop)
    if n = 65535 then .panic
    else do
    let es ← seekRun file ((addr + 24) % 2 ^ 64)
      ((n * (24 + 8 * (dimensionality - 1)) + 16 + 8 * (dimensionality - 1) : Nat) : Int)
      (readEntries ((dimensionality + 255) % 256) n)
    nodeBlocks (readBTree file dims dtSize nElems dimensionality first last fuel false)
      dims dtSize nElems level first last es

/-! ### Filters -/

/-- The data a Fletcher-32 reader gives when it is read to its end; a source that is too short is
read for ever. -/
def fletcherAll (b : Bytes) (size : Nat) : Res Bytes :=
  match fletcher32Reader b size with
  | .err e => .err e
  | .panic => .panic
  | .ok fl =>
    if b.length < size - 4 then .panic
    else (fl.read (size - 4) (size - 4)).map (·.1)

/-- The data an unshuffle reader gives when it is read to its end. -/
def unshuffleAll (b : Bytes) (size param : Nat) : Res Bytes :=
  if size = 0 then .ok []
  else ((Unsh.mk b none size param).read size).map (·.1)

/-- netcdf/hdf5/hdf5.go:2547-2556: the sizes between the filters. `j` is the number of the first
filter. -/
def targetSizes (mask : Nat) : Nat → List (Nat × List Nat) → Nat → List Nat
  | _, [], _ => []
  | j, f :: fs, curr =>
    curr :: targetSizes mask (j + 1) fs (if mask / 2 ^ j % 2 = 0 ∧ f.1 = 3 then curr + 4 else curr)

/-- netcdf/hdf5/hdf5.go:2558-2588: the filters, the last one first; `fs` has the number, the filter
and the target size. The result has the input size of the next filter. -/
def undoFilters (inflate : Bytes → Res Bytes) (mask : Nat) :
    List (Nat × (Nat × List Nat) × Nat) → Bytes × Nat → Res (Bytes × Nat)
  | [], x => .ok x
  | (j, f, target) :: fs, (b, size) =>
    if mask / 2 ^ j % 2 = 1 then undoFilters inflate mask fs (b, size)
    else if f.1 = 3 then
      match fletcherAll b size with
      | .err e => .err e
      | .panic => .panic
      | .ok b => undoFilters inflate mask fs (b, u64 (size - 4))
    else if f.1 = 1 then
      match inflate b with
      | .err e => .err e
      | .panic => .panic
      | .ok b => undoFilters inflate mask fs (b.take target, target)
    else
      match unshuffleAll b target (f.2.headD 0) with
      | .err e => .err e
      | .panic => .panic
      | .ok b => undoFilters inflate mask fs (b, target)

/-- The filters with their numbers and target sizes, the last one first. -/
def pipeline (filters : List (Nat × List Nat)) (v : DBlock) : List (Nat × (Nat × List Nat) × Nat) :=
  ((List.range filters.length).zip (filters.zip (targetSizes v.mask 0 filters v.dsLength))).reverse

/-- netcdf/hdf5/hdf5.go:2529, 2541, 2576, 2586: `canSeek` for a block in the file: no filter but
Fletcher-32 is active. -/
def canSeek (filters : List (Nat × List Nat)) (mask : Nat) : Bool :=
  ((List.range filters.length).zip filters).all fun p => mask / 2 ^ p.1 % 2 == 1 || p.2.1 == 3

/-- netcdf/hdf5/hdf5.go:2530-2597: the bytes of a block behind its filters, without the first
`skipBegin` bytes and the last `skipEnd`. A block that can be read in place is not read through its
filters when the beginning is skipped. -/
def blockBytes (inflate : Bytes → Res Bytes) (file : Bytes) (filters : List (Nat × List Nat))
    (v : DBlock) (skipBegin skipEnd : Nat) : Res Bytes :=
  match v.src with
  | .raw b =>
    let keep := i64 (u64 (v.dsLength - skipEnd))
    if keep < 0 ∨ b.length < keep then .panic
    else do
      let (b, _) ← undoFilters inflate v.mask (pipeline filters v) (b.take keep.toNat, b.length)
      if b.length < skipBegin then .err .eof else pure (b.drop skipBegin)
  | .at addr len => do
    let s ← newSeek file addr (i64 len)
    if 0 < skipBegin ∧ canSeek filters v.mask = true then do
      let s ← newSeek file ((addr + skipBegin) % 2 ^ 64) (i64 (u64 (v.dsLength - (skipBegin + skipEnd))))
      pure s.rem
    else do
      let (b, _) ← undoFilters inflate v.mask (pipeline filters v) (s.rem, len)
      if b.length < skipBegin then .err .eof else pure (b.drop skipBegin)

/-! ### Fill values -/

/-- internal/fillvalue.go:9-22: the fill value of a number in netCDF files. -/
def ncFill : Kind → Nat
  | .i8 => 2 ^ 8 - 127
  | .u8 => 255
  | .i16 => 2 ^ 16 - 32767
  | .u16 => 65535
  | .i32 => 2 ^ 32 - 2147483647
  | .u32 => 4294967295
  | .f32 => 0x7cf00000
  | .f64 => 0x479e000000000000
  | .i64 => 2 ^ 64 - 9223372036854775806
  | .u64 => 0xfffffffffffffffe

/-- The `defaultFillValue` functions: netcdf/hdf5/fixedPoint.go:78-128, floatingPoint.go:59-84,
string.go:29-32, vlen.go:93-95 and those that return what they get. -/
def defaultFill (dt : DT) (undef : Bool) : Res Bytes :=
  match numKind dt with
  | some (k, be) =>
    if undef then .ok (hostEnc be k.size (ncFill k))
    else if k.isFloat then .ok (List.replicate k.size 0)
    else .ok [0]
  | none =>
    match dt with
    | .float .. => .err .internal
    | .str _ => .ok [0]
    | .vlen .. => .ok [0]
    | _ => .ok [if undef then 0xff else 0]

/-- netcdf/hdf5/hdf5.go:2659-2690 `makeFillValueReader`: the pattern. -/
def fillPattern (i : Info) (dt : DT) : Res Bytes :=
  match i.fillValue with
  | some (.value (b :: bs)) => .ok (b :: bs)
  | some (.value []) => .panic
  | some .undefined => defaultFill dt true
  | none =>
    match i.fillValueOld with
    | some (b :: bs) => .ok (b :: bs)
    | some [] => .panic
    | none => defaultFill dt false

/-- `length` bytes of the pattern (`int64` that may be negative). -/
def fillBytes (i : Info) (dt : DT) (length : Int) : Res Bytes :=
  (fillPattern i dt).map fun p => fillStream p length.toNat

/-! ### Records -/

/-- netcdf/hdf5/segment.go:10-14 `segment`, with the bytes of its reader. -/
structure Seg where
  offset : Nat
  length : Nat
  b : Bytes

/-- Insertion by offset. -/
def insertSeg (x : Seg) : List Seg → List Seg
  | [] => [x]
  | y :: ys => if x.offset ≤ y.offset then x :: y :: ys else y :: insertSeg x ys

/-- `segments.sort()`; segments with equal offsets could come in any order. -/
def sortSegs : List Seg → List Seg
  | [] => []
  | x :: xs => insertSeg x (sortSegs xs)

/-- netcdf/hdf5/hdf5.go:2507-2509: where a block starts in the stream. -/
def blockOffset (i : Info) (dims : List Nat) (dtLen offset : Nat) (v : DBlock) : Res Nat :=
  if i.layout = [] then .ok offset else flatOffset v.offsets dims i.layout dtLen

/-- netcdf/hdf5/hdf5.go:2500-2599: the loop over the blocks, from position `offset`. -/
def recordSegs (inflate : Bytes → Res Bytes) (file : Bytes) (i : Info) (dims : List Nat) (dtLen first last : Nat) :
    Nat → List DBlock → Res (List Seg)
  | _, [] => .ok []
  | offset, v :: vs => do
    let offset ← blockOffset i dims dtLen offset v
    let next := if i.layout = [] then (offset + v.dsLength) % 2 ^ 64 else offset
    let stop := (offset + v.dsLength) % 2 ^ 64
    if stop ≤ first then recordSegs inflate file i dims dtLen first last next vs
    else if last ≤ offset then .ok []
    else do
      let skipBegin := if offset ≤ first ∧ first < stop then first - offset else 0
      let skipEnd := if last < stop then stop - last else 0
      let b ← blockBytes inflate file i.filters v skipBegin skipEnd
      let segs ← recordSegs inflate file i dims dtLen first last next vs
      pure (⟨offset + skipBegin, u64 (v.dsLength - (skipBegin + skipEnd)), b⟩ :: segs)

/-- netcdf/hdf5/hdf5.go:2605-2618: the segments with the holes between them filled; the bytes and
the position behind them. -/
def joinSegs (i : Info) (dt : DT) : Nat → List Seg → Res (Bytes × Nat)
  | off, [] => .ok ([], off)
  | off, s :: ss => do
    let hole ← if off < s.offset then fillBytes i dt (s.offset - off) else pure []
    let off := if off < s.offset then s.offset else off
    let (b, off') ← joinSegs i dt ((off + s.length) % 2 ^ 64) ss
    pure (hole ++ s.b.take s.length ++ b, off')

/-- The slice of the first dimension an object is restricted to: `isSlice`, `firstDim`, `lastDim`. -/
abbrev Sl := Option (Int × Int)

/-- netcdf/hdf5/hdf5.go:2485-2493: the range of bytes. -/
def byteRange (dims : List Nat) (size : Nat) (layoutReader : Bool) (sl : Sl) : Nat × Nat × Nat :=
  match sl, dims with
  | some (a, b), d :: _ =>
    if layoutReader = false ∧ 0 < d then
      let first := u64 a * (size / d) % 2 ^ 64
      let last := u64 b * (size / d) % 2 ^ 64
      (first, last, u64 (last - first))
    else (0, size, size)
  | _, _ => (0, size, size)

/-- netcdf/hdf5/hdf5.go:2494-2497: the blocks of a variable. `cached` are those the object has
already (`obj.dataBlocks`); when there are none, the index of chunks is read, and what is found stays
in the object. The fuel is for the index. -/
def blocksOf (fuel : Nat) (file : Bytes) (i : Info) (dims : List Nat) (first last : Nat) :
    List DBlock → Res (List DBlock)
  | [] =>
    match i.chunk with
    | some (addr, elemSize, n, dimensionality) =>
      if addr = 0 then .ok []
      else readBTree file dims elemSize n dimensionality first last fuel true addr
    | none => .ok []
  | v :: vs => .ok (v :: vs)

/-- netcdf/hdf5/hdf5.go:2498-2631: the bytes from `first` to `last` of the blocks. -/
def recordFrom (inflate : Bytes → Res Bytes) (file : Bytes) (i : Info) (dt : DT) (dims : List Nat)
    (first last size : Nat) (blocks : List DBlock) : Res Bytes :=
  if blocks = [] then fillBytes i dt (i64 size)
  else do
    let segs ← recordSegs inflate file i dims dt.len first last 0 blocks
    let (b, off) ← joinSegs i dt first (sortSegs segs)
    let extra ← if off < size then fillBytes i dt (size - off) else pure []
    let off := if off < size then size else off
    if last < off then .err .corrupted
    else pure ((b ++ extra).take size)

/-- netcdf/hdf5/hdf5.go:2476-2632 `newRecordReader`: the bytes, how many of them there should be and
the blocks the object has afterwards. -/
def recordBytes (inflate : Bytes → Res Bytes) (fuel : Nat) (file : Bytes) (i : Info) (dt : DT)
    (dims : List Nat) (cached : List DBlock) (sl : Sl) : Res (Bytes × Nat × List DBlock) := do
  let size ← calcAttrSize dims i.layout dt.len
  if size = 0 then pure ([], 0, cached)
  else do
    let lay ← needsLayoutReader dims i.layout
    let (first, last, size) := byteRange dims size lay sl
    let blocks ← blocksOf fuel file i dims first last cached
    let b ← recordFrom inflate file i dt dims first last size blocks
    pure (b, size, blocks)

/-! ### The layout reader -/

/-- The digits of `n` in the mixed radix `radices`, the last one running fastest:
netcdf/hdf5/readers.go:432-436, 480-483. -/
def digits (radices : List Nat) (n : Nat) : List Nat :=
  (radices.foldr (fun r (acc : List Nat × Nat) => (acc.2 % r :: acc.1, acc.2 / r)) ([], n)).1

/-- The number with these digits: netcdf/hdf5/readers.go:499-503. -/
def undigits : List Nat → List Nat → Nat
  | d :: ds, _ :: rs => d * rs.foldl (· * ·) 1 + undigits ds rs
  | _, _ => 0

/-- `copy(buf[off:], src)` inside the bounds. -/
def blit (buf : Bytes) (off : Nat) (src : Bytes) : Bytes :=
  buf.take off ++ src ++ buf.drop (off + src.length)

/-- netcdf/hdf5/readers.go:404-518 `fillrow` for the stripe with number `stripe`; `chunks` are the
chunks of this stripe, one after the other. -/
def stripeBytes (dims layout grid : List Nat) (dtLen stripe : Nat) (chunks : Bytes) : Bytes :=
  let outer := dims.dropLast
  let lay := (layout.take dims.length).dropLast
  let coords := digits grid.dropLast stripe
  let starts := (coords.zip lay).map fun p => p.1 * p.2
  let valid := (starts.zip (lay.zip outer)).map fun p => min (p.1 + p.2.1) p.2.2 - p.1
  let lineLen := dims.getLastD 0
  let chunkLine := (layout.take dims.length).getLastD 0
  let chunkBytes := prod64 layout * dtLen
  let rowsInChunk := lay.foldl (· * ·) 1
  (List.range (grid.getLastD 0)).foldl (fun buf gc =>
    let chunk := (chunks.drop (gc * chunkBytes)).take chunkBytes
    (List.range rowsInChunk).foldl (fun buf rc =>
      let delta := digits lay rc
      if (starts.zip (delta.zip outer)).all (fun p => decide (p.1 + p.2.1 < p.2.2)) then
        let row := undigits delta valid
        let col := gc * chunkLine
        if lineLen ≤ col then buf
        else
          let n := if lineLen < col + chunkLine then lineLen - col else chunkLine
          blit buf ((row * lineLen + col) * dtLen)
            ((chunk.drop (rc * chunkLine * dtLen)).take (n * dtLen))
      else buf) buf) (List.replicate (valid.foldl (· * ·) 1 * lineLen * dtLen) 0)

/-- netcdf/hdf5/readers.go:404-524: everything the layout reader gives for the chunks `b`. A chunk
that is not complete ends the data. -/
def layoutBytes (dims layout : List Nat) (dtLen : Nat) (b : Bytes) : Res Bytes :=
  if dims = [] then .panic
  else do
    let grid ← gridOf dims layout
    let stripeLen := grid.getLastD 0 * (prod64 layout * dtLen)
    let stripes := grid.dropLast.foldl (· * ·) 1
    pure ((List.range stripes).flatMap fun s =>
      let part := (b.drop (s * stripeLen)).take stripeLen
      if part.length < stripeLen then [] else stripeBytes dims layout grid dtLen s part)

/-! ### Values -/

/-- netcdf/hdf5/hdf5.go:2738-2753: the dimensions of the result. -/
def sliceDims (dims : List Nat) (sl : Sl) : List Nat :=
  match sl, dims with
  | some (a, b), _ :: ds => u64 (b - a) :: ds
  | _, _ => dims

/-- netcdf/hdf5/hdf5.go:2693-2726 `getData`: the bytes of a variable, or of a slice of it, and the
blocks the object has afterwards. -/
def dataBytes (inflate : Bytes → Res Bytes) (fuel : Nat) (file : Bytes) (i : Info)
    (dt : DT) (dims : List Nat) (cached : List DBlock) (sl : Sl) : Res (Bytes × List DBlock) := do
  let sz ← calcAttrSize dims i.layout dt.len
  let (b, rem, blocks) ← recordBytes inflate fuel file i dt dims cached sl
  let lay ← needsLayoutReader dims i.layout
  let rem := if lay then prod64 dims * dt.len % 2 ^ 64 else rem
  let b ← if lay then layoutBytes dims i.layout dt.len b else pure b
  let b ← if rem < sz then (fillBytes i dt (sz - b.length)).map (b ++ ·) else pure b
  match sl with
  | none => pure (b.take sz, blocks)
  | some (x, y) =>
    if y < x then .err .assertFail
    else
      let chunk := match dims with
        | [] => 1
        | 0 :: _ => 0
        | d :: _ => sz / d
      pure (b.take (chunk * (y - x).toNat), blocks)

/-- netcdf/hdf5/hdf5.go:2693-2755 `getData`: the value of a variable, or of a slice of it, and the
blocks the object has afterwards. -/
def getData (inflate : Bytes → Res Bytes) (fuel : Nat) (heap : HeapFn) (file : Bytes) (i : Info)
    (dt : DT) (dims : List Nat) (cached : List DBlock) (sl : Sl) : Res (GoVal × List DBlock) := do
  let (b, blocks) ← dataBytes inflate fuel file i dt dims cached sl
  let v ← onBytes b (alloc heap dt (sliceDims dims sl))
  pure (v, blocks)

end Verif.H5
