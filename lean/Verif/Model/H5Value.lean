import Verif.Model.H5TypedWriter
import Verif.Model.Fill
/-!
Values in HDF5 files: how the writer finds shape and type and encodes numbers, strings and slices of
them, and how the reader decodes them. Compounds, opaques and enumerations (their Go types are private
to the package; a user can only pass on values that were read) are written as in Model/H5TypedWriter;
for reading them see Model/H5Typed.
Registered types (`register` is private) and Go arrays, pointers and interfaces are not modelled.
-/
namespace Verif.H5

/-! ### Writer -/

/-- `reflect.Zero`. -/
def zeroVal : GoTy → GoVal
  | .num k => .num k 0
  | .str => .str []
  | .slice t => .slice t []
  | .other b => .other b

/-- `t.Kind() == reflect.Slice` repeatedly: the type inside all slices. -/
def baseTy : GoTy → GoTy
  | .slice t => baseTy t
  | t => t

/-- Number of slices around the base type. -/
def tyDepth : GoTy → Nat
  | .slice t => tyDepth t + 1
  | _ => 0

/-- netcdf/hdf5/hdf5writer.go:578-593 `shouldUseVLen`. -/
def shouldUseVLen : GoVal → Bool
  | .slice e _ => baseTy e == .str
  | _ => false

mutual
/-- netcdf/hdf5/writer_utils.go:614-627 `findMaxLen`. -/
def findMaxLen : GoVal → Nat
  | .slice _ xs => findMaxLens xs
  | .str s => s.length
  | _ => 0
/-- The loop over the elements. -/
def findMaxLens : List GoVal → Nat
  | [] => 0
  | x :: xs => max (findMaxLen x) (findMaxLens xs)
end

/-- `reflect.Value.Len()` of a slice. -/
def rowLen : GoVal → Nat
  | .slice _ xs => xs.length
  | _ => 0

/-- netcdf/hdf5/hdf5writer.go:835-847, 904-914: the elements are slices, not all of one length. -/
def varying (elem : GoTy) (xs : List GoVal) : Bool :=
  match elem, xs with
  | .slice _, x :: xs => xs.any fun y => rowLen y != rowLen x
  | _, _ => false

mutual
/-- netcdf/hdf5/hdf5writer.go:885-921 `getAttributeDimensions`; the number of dimensions is the
length of the list. -/
def attrDims : GoVal → List Nat
  | .user v => attrDimsT v
  | .slice e xs => xs.length :: (if varying e xs then [] else attrDimsHead xs)
  | _ => []
/-- Go on with the first element. -/
def attrDimsHead : List GoVal → List Nat
  | [] => []
  | x :: _ => attrDims x
end

mutual
/-- netcdf/hdf5/hdf5writer.go:1008-1026 `getDimensionsRecursive`. -/
def getDims : GoVal → List Nat
  | .user v => getDimsT v
  | .slice _ xs => xs.length :: getDimsHead xs
  | _ => []
/-- Go on with the first element. -/
def getDimsHead : List GoVal → List Nat
  | [] => []
  | x :: _ => getDims x
end

mutual
/-- netcdf/hdf5/hdf5writer.go:1032-1051 `getDimensionsLimited`. -/
def getDimsLimited : GoVal → Nat → List Nat
  | .user v, n => getDimsLimitedT v n
  | .slice _ xs, n => if n = 0 then [] else xs.length :: getDimsLimitedHead xs (n - 1)
  | _, _ => []
/-- Go on with the first element. -/
def getDimsLimitedHead : List GoVal → Nat → List Nat
  | [], _ => []
  | x :: _, n => getDimsLimited x n
end

mutual
/-- netcdf/hdf5/writer_utils.go:164-178 `navigateToFirst`. -/
def navigateToFirst : GoVal → Nat → GoVal
  | .slice e xs, n => if n = 0 then .slice e xs else navigateHead e xs (n - 1)
  | v, _ => v
/-- The first element, or the zero value of its type. -/
def navigateHead (e : GoTy) : List GoVal → Nat → GoVal
  | [], _ => zeroVal e
  | x :: _, n => navigateToFirst x n
end

/-- netcdf/hdf5/writer_utils.go:463-472: the type behind `n` dimensions. -/
def stripTy : Nat → GoTy → GoTy
  | n + 1, .slice t => stripTy n t
  | _, t => t

/-- The first element of a slice or the zero value of its type (writer_utils.go:298-303). -/
def firstElem : GoVal → GoVal
  | .slice _ (x :: _) => x
  | .slice e [] => zeroVal e
  | v => v

/-- netcdf/hdf5/writer_utils.go:288-312, 450-529 `buildVlenSequenceDatatype`,
`buildDatatypeMessage`. The fuel is the number of slices in the type, plus one. -/
def dtOf : Nat → GoVal → Nat → Res WTy
  | 0, _, _ => .panic
  | f + 1, v, nDims =>
    match stripTy nDims v.ty with
    | .slice _ =>
      let elem := firstElem (navigateToFirst v nDims)
      match dtOf f elem (getDims elem).length with
      | .ok t => .ok (.vlenSeq t)
      | .err e => .err e
      | .panic => .panic
    | .num k => .ok (.num k)
    | .str => if shouldUseVLen v then .ok .vlenStr else .ok (.fixStr (findMaxLen v + 1))
    | .other _ =>
      match v with
      | .user v => datatypeOfT v nDims
      | _ => .err .unsupported

/-- `buildDatatypeMessage(val, nDims)`. -/
def datatypeOf (v : GoVal) (nDims : Nat) : Res WTy := dtOf (tyDepth v.ty + 1) v nDims

mutual
/-- netcdf/hdf5/hdf5writer.go:519-576 `writeDataRecursive` and netcdf/hdf5/writer_utils.go:357-414
`writeAttributeDataRecursive`, which do the same: the bytes, and the indices of variable-length
elements that are left. Without a heap (`hw.heap == nil`) a descriptor is a run-time panic; so is
running out of indices. -/
def writeVal (be : Bool) (heap : Option Heap) (fixedLen : Nat) :
    GoVal → Nat → List Nat → Res (Bytes × List Nat)
  | .slice _ xs, dims, vlens =>
    if dims = 0 then
      match vlens, heap with
      | i :: vlens, some h => .ok (descriptor xs.length h.addr i, vlens)
      | _, _ => .panic
    else writeVals be heap fixedLen xs (dims - 1) vlens
  | .str s, _, vlens =>
    if 0 < fixedLen then .ok (s ++ List.replicate (fixedLen - s.length) 0, vlens)
    else
      match heap with
      | some h => .ok (descriptor s.length h.addr ((h.indices.get s).getD 0), vlens)
      | none => .panic
  | .num k bits, _, vlens => .ok (hostEnc be k.size bits, vlens)
  | .other _, _, _ => .err .unsupported
  | .user v, dims, vlens => writeValT be heap fixedLen v dims vlens
/-- The loop over the elements. -/
def writeVals (be : Bool) (heap : Option Heap) (fixedLen : Nat) :
    List GoVal → Nat → List Nat → Res (Bytes × List Nat)
  | [], _, vlens => .ok ([], vlens)
  | x :: xs, dims, vlens =>
    match writeVal be heap fixedLen x dims vlens with
    | .err e => .err e
    | .panic => .panic
    | .ok (b, vlens) =>
      match writeVals be heap fixedLen xs dims vlens with
      | .err e => .err e
      | .panic => .panic
      | .ok (bs, vlens) => .ok (b ++ bs, vlens)
end

/-- netcdf/hdf5/hdf5writer.go:498-504 and netcdf/hdf5/writer_utils.go:344-350: the length of fixed
strings, 0 for those in the heap. -/
def fixedLen (v : GoVal) : Nat :=
  if shouldUseVLen v then 0
  else
    match v with
    | .slice .. => findMaxLen v + 1
    | .str _ => findMaxLen v + 1
    | .user v => fixedLenT v
    | _ => 0

/-- netcdf/hdf5/writer_utils.go:315-355 `buildAttributeMessage`, with the indices of its
variable-length elements. -/
def attrMessage (be : Bool) (heap : Option Heap) (vlens : List Nat) (name : Bytes) (v : GoVal) :
    Res Bytes :=
  match datatypeOf v (attrDims v).length with
  | .err e => .err e
  | .panic => .panic
  | .ok t =>
    match writeVal be heap (fixedLen v) v (attrDims v).length vlens with
    | .err e => .err e
    | .panic => .panic
    | .ok (data, _) => .ok (buildAttr name (t.bytes be) (buildDataspace (attrDims v)) data)

mutual
/-- netcdf/hdf5/hdf5writer.go:661-674 `collectStringsActual`. -/
def collectAllStrings : Heap → GoVal → Heap
  | h, .slice _ xs => collectAllStringsL h xs
  | h, .str s => h.addString s
  | h, _ => h
/-- The loop over the elements. -/
def collectAllStringsL : Heap → List GoVal → Heap
  | h, [] => h
  | h, x :: xs => collectAllStringsL (collectAllStrings h x) xs
end

/-- netcdf/hdf5/hdf5writer.go:615-659 `collectStringsRecursive`: the strings of slices of strings.
The elements of other slices have none. -/
def collectStrings (h : Heap) (v : GoVal) : Heap :=
  if shouldUseVLen v then collectAllStrings h v
  else
    match v with
    | .user v => collectStringsT h v
    | _ => h

/-- `binary.Write` of one element of a variable-length slice: a number or a slice of numbers. -/
def vlenElem (be : Bool) : GoVal → Res Bytes
  | .num k bits => .ok (hostEnc be k.size bits)
  | .slice (.num k) xs =>
    .ok (xs.flatMap fun | .num _ bits => hostEnc be k.size bits | _ => [])
  | _ => .err .other

/-- The loop of `serializeVlenToHeap`. -/
def vlenElems (be : Bool) : List GoVal → Res Bytes
  | [] => .ok []
  | x :: xs =>
    match vlenElem be x with
    | .err e => .err e
    | .panic => .panic
    | .ok b =>
      match vlenElems be xs with
      | .err e => .err e
      | .panic => .panic
      | .ok bs => .ok (b ++ bs)

/-- netcdf/hdf5/hdf5writer.go:863-881, 924-942 `serializeVlenToHeap`, `serializeVlenElement`: the new
heap and the index. -/
def serializeVlen (be : Bool) (h : Heap) : GoVal → Res (Heap × Nat)
  | .slice _ xs =>
    match vlenElems be xs with
    | .err e => .err e
    | .panic => .panic
    | .ok b => .ok (h.addObject b)
  | _ => .panic

/-- A loop of `serializeVlen`. -/
def serializeVlens (be : Bool) : Heap → List GoVal → Res (Heap × List Nat)
  | h, [] => .ok (h, [])
  | h, x :: xs =>
    match serializeVlen be h x with
    | .err e => .err e
    | .panic => .panic
    | .ok (h, i) =>
      match serializeVlens be h xs with
      | .err e => .err e
      | .panic => .panic
      | .ok (h, is) => .ok (h, i :: is)

mutual
/-- netcdf/hdf5/hdf5writer.go:806-860 `collectVlenFromValue`: the variable-length elements of an
attribute. -/
def collectAttrVlen (be : Bool) : Heap → GoVal → Res (Heap × List Nat)
  | h, .slice e xs =>
    if varying e xs then serializeVlens be h xs else collectAttrVlenL be h xs
  | h, .user v => collectAttrVlenT be h v
  | h, _ => .ok (h, [])
/-- The loop over the elements. -/
def collectAttrVlenL (be : Bool) : Heap → List GoVal → Res (Heap × List Nat)
  | h, [] => .ok (h, [])
  | h, x :: xs =>
    match collectAttrVlen be h x with
    | .err e => .err e
    | .panic => .panic
    | .ok (h, is) =>
      match collectAttrVlenL be h xs with
      | .err e => .err e
      | .panic => .panic
      | .ok (h, is') => .ok (h, is ++ is')
end

mutual
/-- netcdf/hdf5/hdf5writer.go:703-737 `hasVlenData`: more slices than dimensions. -/
def hasVlen : GoVal → Nat → Bool
  | .user v, n => hasVlenT v n
  | .slice e xs, n => if n = 0 then true else hasVlenHead e xs (n - 1)
  | _, _ => false
/-- The first element, or the type of the elements. -/
def hasVlenHead (e : GoTy) : List GoVal → Nat → Bool
  | [], _ => match e with | .slice _ => true | _ => false
  | x :: _, n => hasVlen x n
end

mutual
/-- netcdf/hdf5/hdf5writer.go:741-766 `collectVlenElements`: the variable-length elements of a
variable. -/
def collectVarVlen (be : Bool) : Heap → GoVal → Nat → Res (Heap × List Nat)
  | h, .user v, n => collectVarVlenT be h v n
  | h, .slice e xs, n =>
    if n = 0 then
      match serializeVlen be h (.slice e xs) with
      | .err e => .err e
      | .panic => .panic
      | .ok (h, i) => .ok (h, [i])
    else collectVarVlenL be h xs (n - 1)
  | h, _, _ => .ok (h, [])
/-- The loop over the elements. -/
def collectVarVlenL (be : Bool) : Heap → List GoVal → Nat → Res (Heap × List Nat)
  | h, [], _ => .ok (h, [])
  | h, x :: xs, n =>
    match collectVarVlen be h x n with
    | .err e => .err e
    | .panic => .panic
    | .ok (h, is) =>
      match collectVarVlenL be h xs n with
      | .err e => .err e
      | .panic => .panic
      | .ok (h, is') => .ok (h, is ++ is')
end

/-- netcdf/hdf5/hdf5writer.go:685-695, the body of `collectVlenData`. -/
def collectVar (be : Bool) (h : Heap) (v : GoVal) (nDims : Nat) : Res (Heap × List Nat) :=
  if hasVlen v nDims then collectVarVlen be h v nDims else .ok (h, [])

/-! ### Reader -/

/-- Go kind of a number in a file: netcdf/hdf5/fixedPoint.go:60-77, floatingPoint.go:45-60. -/
def numKind : DT → Option (Kind × Bool)
  | .fixed 1 s be => some (if s then .i8 else .u8, be)
  | .fixed 2 s be => some (if s then .i16 else .u16, be)
  | .fixed 4 s be => some (if s then .i32 else .u32, be)
  | .fixed 8 s be => some (if s then .i64 else .u64, be)
  | .float 4 be => some (.f32, be)
  | .float 8 be => some (.f64, be)
  | _ => none

/-- `n` times, collecting the results. -/
def times {α : Type} (p : P α) : Nat → P (List α)
  | 0 => pure []
  | n + 1 => do
    let x ← p
    let xs ← times p n
    pure (x :: xs)

/-- `[][]...base`, as `makeSlices` makes (netcdf/hdf5/hdf5.go:2448-2454). -/
def nestTy (base : GoTy) : List Nat → GoTy
  | [] => base
  | _ :: ds => .slice (nestTy base ds)

/-- An array of elements that are read one after the other: netcdf/hdf5/fixedPoint.go:166-273,
floatingPoint.go:154-190, string.go:51-82, vlen.go:117-169. The last dimension is read with one call
in some of these functions; the result is the same. -/
def allocArr (base : GoTy) (p : P GoVal) : List Nat → P GoVal
  | [] => p
  | d :: ds => do
    let xs ← times (allocArr base p ds) d
    pure (.slice (nestTy base ds) xs)

/-- One number. -/
def allocNum (k : Kind) (be : Bool) : P GoVal := do
  let b ← rdN k.size
  pure (.num k (if be then beDec b else leDec b))

/-- One string of fixed length (string.go:56-60). -/
def allocFixStr (len : Nat) : P GoVal := do
  let b ← rdN len
  pure (.str (getString b))

/-- netcdf/hdf5/string.go:51-82 `allocRegularStrings` for strings of one byte: one dimension gives
one string, and more dimensions a `reflect` panic, as a string is stored in a `[]string`. -/
def allocChars : List Nat → P GoVal
  | [] => allocFixStr 1
  | [d] => allocFixStr d
  | [d, e] =>
    if 0 < d then do
      let _ ← allocFixStr e
      P.crash
    else pure (.slice (.slice .str) [])
  | d :: ds => do
    let xs ← times (allocChars ds) d
    pure (.slice (nestTy .str ds) xs)

/-- netcdf/hdf5/string.go:51-82 `allocRegularStrings`. -/
def allocFixStrs (len : Nat) (dims : List Nat) : P GoVal :=
  if len = 1 then allocChars dims else allocArr .str (allocFixStr len) dims

/-- The lookup of the global heap; `none` is a nil reader. -/
abbrev HeapFn := Nat → Nat → Res (Option Bytes)

/-- A descriptor: length, address, index. -/
def readDescriptor : P (Nat × Nat × Nat) := do
  let len ← read32
  let addr ← read64
  let idx ← read32
  pure (len, addr, idx)

/-- netcdf/hdf5/vlen.go:120-138: one string of variable length. -/
def allocVlenStr (heap : HeapFn) : P GoVal := do
  let (len, addr, idx) ← readDescriptor
  if len = 0 then pure (.str [])
  else do
    let b ← P.lift (heap addr idx)
    pure (.str (getString (b.getD [])))

/-- One element of a class without inner dimensions: numbers, strings and references
(netcdf/hdf5/reference.go:62-88), which are eight bytes whatever the length of the type. -/
def allocLeaf (heap : HeapFn) (dt : DT) : P GoVal :=
  match numKind dt with
  | some (k, be) => allocNum k be
  | none =>
    match dt with
    | .str len => allocFixStr len
    | .vlen _ true _ => allocVlenStr heap
    | .ref _ => allocNum .u64 false
    | _ => P.fail .unsupported

/-- The Go type of these elements. -/
def leafTy (dt : DT) : GoTy :=
  match numKind dt with
  | some (k, _) => .num k
  | none =>
    match dt with
    | .ref _ => .num .u64
    | _ => .str

/-- Run `p` on the bytes `b` and drop what is left. -/
def onBytes {α : Type} (b : Bytes) (p : P α) : Res α :=
  match p ⟨0, b⟩ with
  | .ok (a, _) => .ok a
  | .err e => .err e
  | .panic => .panic

/-- netcdf/hdf5/vlen.go:178-223: one sequence of variable length. A nil reader is a run-time panic
(the type assertion `bf.(remReader)` in `getDataAttr`). -/
def allocSeq (heap : HeapFn) (elem : DT) : P GoVal := do
  let (len, addr, idx) ← readDescriptor
  if len = 0 then do
    let _ ← P.lift (onBytes (List.replicate elem.len 0) (allocLeaf heap elem))
    pure (.slice (leafTy elem) [])
  else do
    let b ← P.lift (heap addr idx)
    match b with
    | none => P.crash
    | some b => do
      let xs ← P.lift (onBytes b (times (allocLeaf heap elem) len))
      pure (.slice (leafTy elem) xs)

/-- netcdf/hdf5/vlen.go:171-245 `allocVariable`: `vals[0]` is a run-time panic for a dimension of
length zero. -/
def allocSeqs (heap : HeapFn) (elem : DT) : List Nat → P GoVal
  | [] => allocSeq heap elem
  | d :: ds => do
    let xs ← times (allocSeqs heap elem ds) d
    if d = 0 then P.crash else pure (.slice (nestTy (.slice (leafTy elem)) ds) xs)

/-- `alloc` of the type managers for numbers, strings and sequences of them; the other classes are
not modelled (`unsupported`). `convert` (netcdf/hdf5/hdf5.go:3479-3483) changes nothing for these
values. -/
def alloc (heap : HeapFn) (dt : DT) (dims : List Nat) : P GoVal :=
  match dt with
  | .str len => allocFixStrs len dims
  | .vlen _ true _ => allocArr .str (allocVlenStr heap) dims
  | .vlen _ false elem => allocSeqs heap elem dims
  | dt => allocArr (leafTy dt) (allocLeaf heap dt) dims

/-- Number of elements. -/
def dataSize (dims : List Nat) : Nat := dims.foldl (· * ·) 1

/-- netcdf/hdf5/hdf5.go:3135-3158 `undoScalarAttribute`. -/
def undoScalar : GoVal → GoVal
  | .slice _ [x] => x
  | v => v

/-- netcdf/hdf5/hdf5.go:3085-3098 `parseAttr`, 3111-3117: the value of an attribute as it is kept in
the object. `fill` is the fill pattern used when the data are short (`makeFillValueReader`). -/
def attrRaw (heap : HeapFn) (fill : Bytes) (a : Attr) : Res GoVal :=
  let size := dataSize a.dims * a.dt.len % 2 ^ 64
  match a.data with
  | .value s => .ok (.str s)
  | .df b => onBytes ((b ++ fillStream fill (size - b.length)).take size) (alloc heap a.dt a.dims)
  | .none => onBytes (fillStream [0] size) (alloc heap a.dt a.dims)

/-- netcdf/hdf5/hdf5.go:3085-3133, `parseAttr` and the body of `getAttributes`: the value of an
attribute. -/
def attrValue (heap : HeapFn) (fill : Bytes) (a : Attr) : Res GoVal :=
  (attrRaw heap fill a).map undoScalar

end Verif.H5
