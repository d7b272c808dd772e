import Verif.Model.H5Dense
/-!
Object headers: netcdf/hdf5/hdf5writer.go:450-490 `writeObjectHeaderV2` and the recursive reader
netcdf/hdf5/hdf5.go:1872-2297, 710-766, 2401-2446 which builds the tree of objects.

The Go functions recurse through links and continuations without a bound: a continuation that
contains itself recurses for ever. Here the recursion has a fuel and running out of it is `panic`;
`OpensTo` says that some fuel is enough, and a larger one gives the same result
(`walk_mono` in Lemmas/H5Object.lean).

The creation order of attributes is left out: it only orders the keys of `Attributes()`, and it is
zero for attributes of the object header (hdf5.go:2029).
-/
namespace Verif.H5

/-! ### Writer -/

/-- netcdf/hdf5/hdf5writer.go `h5Message`; the writer never sets the flags. -/
structure Msg where
  ty : Nat
  data : Bytes
deriving DecidableEq, Repr

/-- netcdf/hdf5/hdf5writer.go:457-462, one message. The length is stored in two bytes. -/
def Msg.enc (m : Msg) : Bytes := [UInt8.ofNat m.ty] ++ leEnc 2 m.data.length ++ [0] ++ m.data

/-- netcdf/hdf5/hdf5writer.go:464-483: the null message that pads `n` bytes to a multiple of eight. -/
def nilPad (n : Nat) : Bytes :=
  if n % 8 = 0 then []
  else
    let pad := 8 - n % 8
    let pad := if pad < 4 then pad + 8 else pad
    [0] ++ leEnc 2 (pad - 4) ++ [0] ++ List.replicate (pad - 4) 0

/-- netcdf/hdf5/hdf5writer.go:456-483, the messages and the padding. -/
def msgBlock (ms : List Msg) : Bytes :=
  let b := ms.flatMap Msg.enc
  b ++ nilPad b.length

/-- "OHDR" -/
def ohdr : Bytes := [0x4f, 0x48, 0x44, 0x52]
/-- "OCHK" -/
def ochk : Bytes := [0x4f, 0x43, 0x48, 0x4b]

/-- netcdf/hdf5/hdf5writer.go:450-455, 485-486: the header without its checksum. -/
def headerBody (ms : List Msg) : Bytes :=
  ohdr ++ [2, 2] ++ leEnc 4 (msgBlock ms).length ++ msgBlock ms

/-- netcdf/hdf5/hdf5writer.go:450-490 `writeObjectHeaderV2`. -/
def objectHeader (ms : List Msg) : Res Bytes := do
  let sum ← checksum (headerBody ms)
  pure (headerBody ms ++ leEnc 4 sum.toNat)

/-! ### Objects -/

/-- netcdf/hdf5/hdf5.go `dataBlock`, of the layouts without a B-tree: bytes in the message, or a
place in the file. -/
inductive Block
  | raw (b : Bytes)
  | at (addr size : Nat)
deriving DecidableEq, Repr

/-- netcdf/hdf5/hdf5.go:1857, 257: a fill value, or the constant for "undefined". -/
inductive FillVal
  | undefined
  | value (b : Bytes)
deriving DecidableEq, Repr

/-- netcdf/hdf5/hdf5.go `object` without its children. `dims` and `dt` are
`objAttr.dimensions` and the type in `objAttr`, `none` before there is a message for it. -/
structure Info where
  name : Bytes := []
  addr : Nat := 0
  isGroup : Bool := false
  creationOrder : Nat := 0
  dims : Option (List Nat) := none
  dt : Option DT := none
  layout : List Nat := []
  blocks : List Block := []
  /-- `btreeAddr`, `chunkSize`, `numberOfElements` and `dimensionality` -/
  chunk : Option (Nat × Nat × Nat × Nat) := none
  attrs : List Attr := []
  link : Option (Nat × Nat) := none
  attr : Option (Nat × Nat) := none
  filters : List (Nat × List Nat) := []
  fillValue : Option FillVal := none
  fillValueOld : Option Bytes := none
deriving Repr

/-- netcdf/hdf5/hdf5.go `object`. The map `children` is a list in the order of insertion, the key
is the name of the child. -/
inductive Obj
  | mk (info : Info) (children : List Obj)

/-- The fields of an object. -/
def Obj.info : Obj → Info
  | .mk i _ => i
/-- The children of an object. -/
def Obj.kids : Obj → List Obj
  | .mk _ k => k

/-- What the functions below change: the object that is being read and `h5.addrs`. -/
structure St where
  info : Info := {}
  kids : List Obj := []
  addrs : List Nat := []

/-! ### The messages -/

/-- Numbers of four bytes, each preceded by a check that there are four bytes. -/
def readCdv : Nat → P (List Nat)
  | 0 => pure []
  | n + 1 => do
    let r ← remLen
    P.assert (decide (4 ≤ r)) .assertFail
    let x ← read32
    let xs ← readCdv n
    pure (x :: xs)

/-- netcdf/hdf5/hdf5.go:1607-1640, one filter. -/
def readFilter (version : Nat) : P (Nat × List Nat) := do
  let fiv ← read16
  let nameLength ← if version = 1 ∨ 256 ≤ fiv then read16 else pure 0
  let _ ← read16
  let n ← read16
  if 0 < nameLength then do
    let _ ← rdN nameLength
    padTo8
  else pure ()
  let cdv ← readCdv n
  if version = 1 ∧ n % 2 = 1 then do
    let z ← read32
    checkVal 0 z
  else pure ()
  P.assert (fiv == 1 || fiv == 2 || fiv == 3) .unsupportedFilter
  pure (fiv, cdv)

/-- netcdf/hdf5/hdf5.go:1607 the loop over the filters. -/
def readFilters (version : Nat) : Nat → P (List (Nat × List Nat))
  | 0 => pure []
  | n + 1 => do
    let f ← readFilter version
    let fs ← readFilters version n
    pure (f :: fs)

/-- netcdf/hdf5/hdf5.go:1593-1642 `readFilterPipeline`. -/
def readFilterPipeline : P (List (Nat × List Nat)) := do
  let version ← read8
  P.assert (version == 1 || version == 2) .assertFail
  let n ← read8
  if version = 1 then do
    let z ← read16
    checkVal 0 z
    let z ← read32
    checkVal 0 z
  else pure ()
  readFilters version n

/-- netcdf/hdf5/hdf5.go:1799-1855 `readFillValue`: `none` is `nil`. -/
def readFillValue : P (Option FillVal) := do
  let version ← read8
  P.assert (decide (1 ≤ version) && decide (version ≤ 3)) .assertFail
  let (alloc, write, defined, undef) ←
    if version = 3 then do
      let flags ← read8
      checkVal 0 (flags / 64)
      pure (flags % 4, flags / 4 % 4, flags / 32 % 2, flags / 16 % 2)
    else do
      let a ← read8
      let w ← read8
      let d ← read8
      pure (a, w, d, 0)
  if undef = 1 then do
    P.assert (defined == 0) .assertFail
    pure (some .undefined)
  else do
    P.assert (alloc == 1 || alloc == 2 || alloc == 3) .assertFail
    P.assert (write == 0 || write == 1 || write == 2) .assertFail
    if 1 < version ∧ defined = 0 then pure none
    else do
      let len ← read32
      if len = 0 then pure none
      else do
        let b ← rdN len
        pure (some (.value b))

/-- netcdf/hdf5/hdf5.go:532-544 `readNullTerminatedName(f, 0)`. -/
def readComment : P Unit := fun s =>
  match s.rem.findIdx? (· == 0) with
  | none => .err .eof
  | some i => .ok ((), ⟨s.pos + i + 1, s.rem.drop (i + 1)⟩)

/-- netcdf/hdf5/hdf5.go:1644-1797, the effect of a layout message on the object. -/
def setLayout (i : Info) : Layout → Info
  | .compact b => { i with blocks := i.blocks ++ [.raw b] }
  | .contiguous addr size => { i with blocks := i.blocks ++ [.at addr size] }
  | .missing [] => i
  | .missing (d :: ds) => { i with layout := d :: ds }
  | .chunked addr ds elemSize =>
    { i with
      layout := ds
      chunk := some (addr, elemSize, ds.foldl (fun a b => a * b % 2 ^ 64) 1, ds.length + 1) }

/-- The recursive calls: an object header, a continuation block, a symbol table, or the links and
attributes in a heap. -/
inductive Task
  | header (addr : Nat)
  | cont (offset size version flags : Nat)
  | symtab (btree heap : Nat)
  | dense

/-- There is a heap to read. -/
def hasHeap : Option (Nat × Nat) → Bool
  | some (h, _) => h != invalidAddress
  | none => false

/-- netcdf/hdf5/hdf5.go:2436-2446 `dumpObject`. -/
def dumpObject (walk : Task → St → Res St) (st : St) : Res St :=
  if hasHeap st.info.attr || hasHeap st.info.link then walk .dense st else .ok st

/-- netcdf/hdf5/hdf5.go:753-766 and 1338-1348: a new child. Its address is put in `h5.addrs` before
its header is read. -/
def addObject (walk : Task → St → Res St) (name : Bytes) (addr co : Nat) (isGroup : Bool) (st : St) :
    Res St :=
  match walk (.header addr)
      { info := { name := name, addr := addr, creationOrder := co, isGroup := isGroup },
        addrs := st.addrs ++ [addr] } with
  | .err e => .err e
  | .panic => .panic
  | .ok c =>
    match dumpObject walk c with
    | .err e => .err e
    | .panic => .panic
    | .ok c => .ok { st with kids := st.kids ++ [.mk c.info c.kids], addrs := c.addrs }

/-- netcdf/hdf5/hdf5.go:743-766, the second half of `readLinkDirectFrom`. -/
def addLink (walk : Task → St → Res St) (name : Bytes) (addr co : Nat) (st : St) : Res St :=
  if st.kids.any (fun k => k.info.name == name) then .err .assertFail
  else if st.addrs.contains addr then .ok st
  else addObject walk name addr co false st

/-- netcdf/hdf5/hdf5.go:1295-1348, the loop of `readSymbolTableLeaf`. An object that was read before
ends the loop, not only this turn. -/
def symLoop (walk : Task → St → Res St) (file : Bytes) (heap : Nat) : Nat → St → P St
  | 0, st => pure st
  | n + 1, st => do
    let (name, addr) ← symEntry file heap
    if st.kids.any (fun k => k.info.name == name) then P.fail .assertFail
    else if st.addrs.contains addr then pure st
    else do
      let st ← P.lift (addObject walk name addr 0 true st)
      symLoop walk file heap n st

/-- netcdf/hdf5/hdf5.go:1284-1349 `readSymbolTableLeaf`. -/
def readSymLeaf (walk : Task → St → Res St) (file : Bytes) (heap addr : Nat) (st : St) : Res St := do
  let n ← seekRun file addr 8 (do
    checkMagic 4 snodSig
    let v ← read8
    checkVal 1 v
    let z ← read8
    checkVal 0 z
    read16)
  seekRun file ((addr + 8) % 2 ^ 64) (n * 40) (symLoop walk file heap n st)

/-- netcdf/hdf5/hdf5.go:1382-1385, the leaves one after the other. -/
def readSymLeaves (walk : Task → St → Res St) (file : Bytes) (heap : Nat) : List Nat → St → Res St
  | [], st => .ok st
  | a :: as, st => do
    let st ← readSymLeaf walk file heap a st
    readSymLeaves walk file heap as st

/-- netcdf/hdf5/hdf5.go:1351-1386 `readSymbolTable`. -/
def readSymTable (walk : Task → St → Res St) (file : Bytes) (btree heap : Nat) (st : St) : Res St := do
  let as ← readSymRoot file btree
  readSymLeaves walk file heap as st

/-- netcdf/hdf5/hdf5.go:703-708 `readLinkDirect`: a link in a heap. -/
def readLinkAt (walk : Task → St → Res St) (file : Bytes) (addr len : Nat) (st : St) : Res St := do
  let (name, addr, co) ← seekRun file addr len (sub len readLink)
  addLink walk name addr co st

/-- netcdf/hdf5/hdf5.go:561-567 `readAttributeDirect`: an attribute in a heap. -/
def readAttrAt (file : Bytes) (addr len : Nat) (st : St) : Res St := do
  let a ← seekRun file addr len readAttribute
  pure { st with info := { st.info with attrs := st.info.attrs ++ [a] } }

/-- What the functions for version 2 B-trees need to know: the heaps of `obj.link` and `obj.attr`,
`none` for `nil`, and the fuel for `locate`. -/
structure Dense where
  link : Option HeapInfo
  attr : Option HeapInfo
  fuel : Nat

/-- netcdf/hdf5/hdf5.go:825-919 `readRecords`, one record. The types 6 and 9 end the process. A heap
that is `nil` is a nil pointer. -/
def readRecord (walk : Task → St → Res St) (file : Bytes) (d : Dense) (ty : Nat) (st : St) : P St :=
  if ty = 5 then do
    let _ ← read32
    let vt ← read8
    checkVal 0 (vt / 16 % 4)
    let offset ← read32
    let len ← read16
    P.lift (match d.link with
      | none => .panic
      | some h => do
        let (a, o) ← locate file d.fuel h offset
        readLinkAt walk file ((a + o) % 2 ^ 64) len st)
  else if ty = 6 ∨ ty = 9 then P.crash
  else if ty = 8 then do
    let vt ← read8
    checkVal 0 (vt / 16 % 4)
    let lo ← read32
    let hi ← read8
    let len ← read16
    let _ ← read8
    let _ ← read32
    let _ ← read32
    P.lift (match d.attr with
      | none => .panic
      | some h => do
        let (a, o) ← locate file d.fuel h (lo + hi * 2 ^ 32)
        readAttrAt file ((a + o) % 2 ^ 64) len st)
  else P.fail .assertFail

/-- netcdf/hdf5/hdf5.go:824-921 `readRecords`. -/
def readRecords (walk : Task → St → Res St) (file : Bytes) (d : Dense) (ty : Nat) : Nat → St → P St
  | 0, st => pure st
  | n + 1, st => do
    let st ← readRecord walk file d ty st
    readRecords walk file d ty n st

/-- netcdf/hdf5/hdf5.go:923-934 `readBTreeLeaf`. -/
def readLeafNode (walk : Task → St → Res St) (file : Bytes) (d : Dense) (recordSize addr numRec : Nat)
    (st : St) : Res St := do
  let nbytes := wrap64 (6 + wrap64 (i64 numRec * recordSize))
  let st ← seekRun file addr nbytes (do
    checkMagic 4 btlfSig
    let _ ← read8
    let ty ← read8
    readRecords walk file d ty (i64 numRec).toNat st)
  checkChecksum file addr nbytes.toNat
  pure st

/-- netcdf/hdf5/hdf5.go:797-803: `maxNumberOfRecords` is below 256; the subtraction is in 32 bits. -/
def fewRecords (nodeSize recordSize : Nat) : Bool :=
  decide ((nodeSize + (2 ^ 32 - 26)) % 2 ^ 32 / (recordSize + 16) < 256)

/-- netcdf/hdf5/hdf5.go:814-818: the total number of records, of children that are not leaves. -/
def readTotal (deep : Bool) : P Unit :=
  if deep then do
    let _ ← read16
    pure ()
  else pure ()

/-- netcdf/hdf5/hdf5.go:793-819: the children of an internal node; `deep` when they are internal
nodes themselves, `few` for the check of line 803. -/
def childLoop (child : Nat → Nat → St → Res St) (few deep : Bool) :
    Nat → St → P St
  | 0, st => pure st
  | n + 1, st => do
    let addr ← read64
    P.assert few .assertFail
    let numRec ← read8
    let st ← P.lift (child addr numRec st)
    readTotal deep
    childLoop child few deep n st

/-- netcdf/hdf5/hdf5.go:768-822 `readBTreeInternal`; at depth zero `readBTreeLeaf`. The accounting
check of line 820 always holds. -/
def readNode (walk : Task → St → Res St) (file : Bytes) (d : Dense) (nodeSize recordSize : Nat) :
    Nat → Nat → Nat → St → Res St
  | 0, addr, numRec, st => readLeafNode walk file d recordSize addr numRec st
  | depth + 1, addr, numRec, st => do
    let deep := decide (0 < depth)
    let len := 6 + numRec * recordSize + (numRec + 1) * (9 + if deep then 2 else 0)
    let st ← seekRun file addr len (do
      checkMagic 4 btinSig
      let v ← read8
      checkVal 0 v
      let ty ← read8
      let st ← readRecords walk file d ty numRec st
      childLoop (readNode walk file d nodeSize recordSize depth) (fewRecords nodeSize recordSize) deep
        (numRec + 1) st)
    checkChecksum file addr len
    pure st

/-- netcdf/hdf5/hdf5.go:1388-1420 `readBTree`. -/
def readBTree2 (walk : Task → St → Res St) (file : Bytes) (d : Dense) (addr : Nat) (st : St) :
    Res St := do
  let (nodeSize, recordSize, depth, root, rootRec, total) ← seekRun file addr 36 (do
    checkMagic 4 bthdSig
    let v ← read8
    checkVal 0 v
    let _ ← read8
    let nodeSize ← read32
    let recordSize ← read16
    let depth ← read16
    let _ ← read8
    let _ ← read8
    let root ← read64
    let rootRec ← read16
    let total ← read64
    pure (nodeSize, recordSize, depth, root, rootRec, total))
  checkChecksum file addr 34
  readNode walk file d nodeSize recordSize depth root (if 0 < depth then rootRec else total) st

/-- netcdf/hdf5/hdf5.go:2437-2440, the attributes in a heap; also the heap. -/
def readDenseAttrs (walk : Task → St → Res St) (file : Bytes) (fuel : Nat) (st : St) :
    Res (St × Option HeapInfo) :=
  match st.info.attr with
  | none => .ok (st, none)
  | some (h, b) =>
    if h ≠ invalidAddress then do
      let ha ← readHeap file h
      let st' ← readBTree2 walk file ⟨st.info.link.map fun _ => {}, some ha, fuel⟩ b st
      .ok (st', some ha)
    else .ok (st, some {})

/-- netcdf/hdf5/hdf5.go:2442-2445, the links in a heap. -/
def readDenseLinks (walk : Task → St → Res St) (file : Bytes) (fuel : Nat) (ha : Option HeapInfo)
    (st : St) : Res St :=
  match st.info.link with
  | none => .ok st
  | some (h, b) =>
    if h ≠ invalidAddress then do
      let hl ← readHeap file h
      readBTree2 walk file ⟨some hl, ha, fuel⟩ b st
    else .ok st

/-- netcdf/hdf5/hdf5.go:2436-2446 `dumpObject`, when there is a heap. -/
def readDense (walk : Task → St → Res St) (file : Bytes) (fuel : Nat) (st : St) : Res St := do
  let r ← readDenseAttrs walk file fuel st
  readDenseLinks walk file fuel r.2 r.1

/-- netcdf/hdf5/hdf5.go:1944-2098, the `switch` on the type of a message of `size` bytes. -/
def handle (walk : Task → St → Res St) (version ohFlags ty size : Nat) (st : St) : P St :=
  let i := st.info
  if ty = 0 ∨ ty = 15 then do
    skip size
    pure st
  else if ty = 1 then do
    let d ← readDataspace
    pure { st with info := { i with isGroup := false, dims := some d } }
  else if ty = 2 then do
    P.assert i.link.isNone .assertFail
    let l ← readLinkInfo
    pure { st with info := { i with isGroup := true, link := some l } }
  else if ty = 3 then do
    let r ← remLen
    let t ← sub r parseDatatype
    pure { st with info := { i with isGroup := false, dt := some t, layout := [] } }
  else if ty = 4 then do
    let n ← read32
    let b ← rdN n
    pure { st with info := { i with isGroup := false, fillValueOld := some b } }
  else if ty = 5 then do
    let v ← readFillValue
    pure { st with info := { i with isGroup := false, fillValue := v.or i.fillValue } }
  else if ty = 6 then do
    let (name, addr, co) ← readLink
    P.lift (addLink walk name addr co st)
  else if ty = 7 then P.fail .external
  else if ty = 8 then do
    let l ← readLayout
    pure { st with info := setLayout { i with isGroup := false } l }
  else if ty = 9 then do
    let x ← read32
    P.assert (x == 0xdeadbeef) .assertFail
    pure st
  else if ty = 10 then do
    readGroupInfo
    pure { st with info := { i with isGroup := true } }
  else if ty = 11 then do
    let fs ← readFilterPipeline
    pure { st with info := { i with filters := i.filters ++ fs } }
  else if ty = 12 then do
    let a ← readAttribute
    pure { st with info := { i with attrs := i.attrs ++ [a] } }
  else if ty = 13 then do
    readComment
    pure st
  else if ty = 14 then do
    let _ ← rdN 14
    checkZeroes 2
    pure st
  else if ty = 16 then do
    let offset ← read64
    let csize ← read64
    P.lift (walk (.cont offset csize version ohFlags) st)
  else if ty = 17 then do
    let btree ← read64
    let heap ← read64
    P.lift (walk (.symtab btree heap) { st with info := { i with isGroup := true } })
  else if ty = 18 then do
    let _ ← read8
    let z ← read8
    checkVal 0 z
    let z ← read8
    checkVal 0 z
    let z ← read8
    checkVal 0 z
    let _ ← read32
    pure st
  else if ty = 19 then P.fail .superblock
  else if ty = 21 then do
    P.assert i.attr.isNone .assertFail
    let a ← readAttributeInfo
    pure { st with info := { i with attr := some a } }
  else if ty = 22 then do
    let v ← read8
    checkVal 0 v
    let _ ← read32
    pure st
  else P.fail .assertFail

/-- netcdf/hdf5/hdf5.go:1880-1942: what comes next in a chunk. -/
inductive Head
  /-- a message without data -/
  | next
  /-- leave the loop -/
  | stop
  | msg (ty size : Nat)

/-- netcdf/hdf5/hdf5.go:1877-1942, the start of a message. The version is 0, 1 or 2. -/
def readHead (version ohFlags chunkSize : Nat) : P Head := do
  let ty ← if version = 1 then read16 else read8
  let size ← read16
  if size = 0 ∧ version = 1 then pure .next
  else do
    let c ← count
    if c = chunkSize then pure .stop
    else do
      let _ ← read8
      if version = 1 then checkZeroes 3 else pure ()
      let r ← remLen
      if ohFlags / 4 % 2 = 1 ∧ r < 2 then pure .stop
      else do
        if ohFlags / 4 % 2 = 1 then do
          let _ ← read16
          pure ()
        else pure ()
        if size = 0 ∧ 1 < version then pure .next
        else do
          let r ← remLen
          P.assert (decide (version ≠ 1) || decide (size ≤ r)) .assertFail
          let c' ← count
          let save := if 1 < version then c' else c
          P.assert (decide (size ≤ chunkSize - save)) .assertFail
          pure (.msg ty size)

/-- netcdf/hdf5/hdf5.go:1943, 2101-2121: a message of `size` bytes. In versions 1 and 2 what it
leaves must be zero and is read; in version 0 it stays in the reader. -/
def msgSub {α : Type} (version size : Nat) (p : P α) : P α := fun s =>
  if version = 1 ∨ version = 2 then
    match p ⟨0, s.rem.take size⟩ with
    | .ok (a, t) =>
      if t.rem.all (· == 0) then .ok (a, ⟨s.pos + size, s.rem.drop size⟩) else .panic
    | .err e => .err e
    | .panic => .panic
  else sub size p s

/-- netcdf/hdf5/hdf5.go:1872-2130 `readCommon`, the loop. Every turn reads at least three bytes, so
one more than the number of bytes is enough fuel for this loop. -/
def msgLoop (walk : Task → St → Res St) (version ohFlags chunkSize : Nat) :
    Nat → St → P St
  | 0, _ => P.crash
  | fuel + 1, st => do
    let r ← remLen
    if r < 3 then do
      checkZeroes r
      pure st
    else do
      let h ← readHead version ohFlags chunkSize
      match h with
      | .next => msgLoop walk version ohFlags chunkSize fuel st
      | .stop => do
        let r ← remLen
        checkZeroes r
        pure st
      | .msg ty size => do
        let st ← msgSub version size (handle walk version ohFlags ty size st)
        msgLoop walk version ohFlags chunkSize fuel st

/-- netcdf/hdf5/hdf5.go:1872-2130 `readCommon` on a chunk. -/
def readCommon (walk : Task → St → Res St) (version ohFlags chunkSize : Nat) (st : St) : P St :=
  sub chunkSize (do
    let r ← remLen
    msgLoop walk version ohFlags chunkSize (r + 1) st)

/-- netcdf/hdf5/hdf5.go:2132-2161 `readContinuation`, after the two numbers have been read. In
version 2 a size of zero leads to `make` with a negative length. -/
def readCont (walk : Task → St → Res St) (file : Bytes) (offset size version ohFlags : Nat)
    (st : St) : Res St :=
  match newSeek file offset (i64 size) with
  | .err e => .err e
  | .panic => .panic
  | .ok s =>
    match (do
      if 1 < version then checkMagic 4 ochk else pure ()
      let st ← readCommon walk version ohFlags (if 1 < version then size - 8 else size) st
      if 1 < version then do
        let c ← count
        let r ← remLen
        checkZeroes (min (size - 4 - c) r)
      else pure ()
      pure st : P St) s with
    | .err e => .err e
    | .panic => .panic
    | .ok (st, _) =>
      if 1 < version then
        if size = 0 then .panic
        else (checkChecksum file offset (size - 4)).map fun _ => st
      else .ok st

/-- netcdf/hdf5/hdf5.go:1447-1460 `isMagic`. -/
def isMagic (file m : Bytes) (addr : Nat) : Res Bool :=
  if addr = 0 ∨ addr = invalidAddress then .err .assertFail
  else if file.length < (addr + 4) % 2 ^ 64 then .err .corrupted
  else .ok ((file.drop addr).take 4 == m)

/-- netcdf/hdf5/hdf5.go:2172-2262 `readDataObjectHeaderV2`. -/
def readHeaderV2 (walk : Task → St → Res St) (file : Bytes) (addr : Nat) (st : St) : Res St := do
  let st := { st with info := { st.info with addr := addr } }
  let flags ← seekRun file addr 6 (do
    checkMagic 4 ohdr
    let version ← read8
    checkVal 2 version
    let flags ← read8
    P.assert (decide (flags < 64)) .assertFail
    pure flags)
  let a := addr + 6
  if flags / 32 % 2 = 1 then seekRun file a 16 (skip 16) else pure ()
  let a := if flags / 32 % 2 = 1 then a + 16 else a
  if flags / 16 % 2 = 1 then seekRun file a 4 (skip 4) else pure ()
  let a := if flags / 16 % 2 = 1 then a + 4 else a
  let n : Nat := 2 ^ (flags % 4)
  let chunkSize ← seekRun file a n (readEnc n)
  let a := a + n
  let st ← seekRun file a (i64 chunkSize)
    (readCommon walk 2 flags chunkSize { st with kids := [] })
  let a := a + chunkSize
  checkChecksum file addr (a - addr)
  pure st

/-- netcdf/hdf5/hdf5.go:2264-2297 `readDataObjectHeaderV1`. -/
def readHeaderV1 (walk : Task → St → Res St) (file : Bytes) (addr : Nat) (st : St) : Res St := do
  let st := { st with info := { st.info with addr := addr } }
  let (version, headerSize) ← seekRun file addr 16 (do
    let version ← read8
    P.assert (version == 0 || version == 1) .assertFail
    let z ← read8
    checkVal 0 z
    let _ ← read16
    let _ ← read32
    let headerSize ← read32
    checkZeroes 4
    pure (version, headerSize))
  seekRun file (addr + 16) headerSize
    (readCommon walk version 0 headerSize { st with kids := [] })

/-- netcdf/hdf5/hdf5.go:2163-2170 `readDataObjectHeader`, 2132-2161 `readContinuation`, 1351-1386
`readSymbolTable`, 2436-2446 `dumpObject`. -/
def walk (file : Bytes) : Nat → Task → St → Res St
  | 0, _, _ => .panic
  | fuel + 1, .header addr, st =>
    match isMagic file ohdr addr with
    | .err e => .err e
    | .panic => .panic
    | .ok true => readHeaderV2 (walk file fuel) file addr st
    | .ok false => readHeaderV1 (walk file fuel) file addr st
  | fuel + 1, .cont offset size version flags, st =>
    readCont (walk file fuel) file offset size version flags st
  | fuel + 1, .symtab btree heap, st => readSymTable (walk file fuel) file btree heap st
  | fuel + 1, .dense, st => readDense (walk file fuel) file fuel st

/-- netcdf/hdf5/hdf5.go:2401-2428 `New` and 502-505: the object of the root group. The root address
is not put in `h5.addrs`. -/
def openN (fuel : Nat) (file : Bytes) : Res Obj := do
  let (root, ext) ← readSuperblock file
  let a ← if ext ≠ invalidAddress then (walk file fuel (.header ext) {}).map (·.addrs) else pure []
  if root = invalidAddress then .err .assertFail
  else do
    let st ← walk file fuel (.header root) { addrs := a }
    let st := { st with info := { st.info with isGroup := true } }
    let st ← dumpObject (walk file fuel) st
    pure (.mk st.info st.kids)

/-- Opening `file` succeeds with this tree of objects. -/
def OpensTo (file : Bytes) (o : Obj) : Prop := ∃ fuel, openN fuel file = .ok o

end Verif.H5
