import Verif.Model.H5Heap
/-!
Writing values of all Go types, also of the unexported types that a user gets by reading:
`compound` (a named slice of fields), `opaque` (a named slice of bytes) and `enumerated` (a struct).
netcdf/hdf5/hdf5writer.go:493-576, 615-942, 1008-1051, 1183-1255 and
netcdf/hdf5/writer_utils.go:108-529. For numbers, strings and slices of them this is Model/H5Value
again, with more values.

`reflect.Kind` of `compound` and `opaque` is `Slice`: a function that asks for the kind before it
asks for the type takes them for slices of structs and of bytes.

Not modelled: slices whose element type is an interface; an enumeration whose values are no
integers (it would get a base type of size 0) or whose members have another type than its values
(here: an error).
-/
namespace Verif.H5

/-- `reflect.Zero`. -/
def zeroValT : TTy → TVal
  | .num k => .num k 0
  | .str => .str []
  | .slice t => .slice t []
  | .opaque => .opaque []
  | .compound => .compound [] []
  | .field => .field [] .nil
  | .enum => .enum .nil [] []
  | .nil => .nil

/-! ### Supported types -/

/-- netcdf/hdf5/hdf5writer.go:1232-1255 `isSupportedElemType`. -/
def supportedTyT : TTy → Bool
  | .slice t => supportedTyT t
  | .num _ | .str | .opaque | .compound | .enum => true
  | .field | .nil => false

mutual
/-- netcdf/hdf5/hdf5writer.go:1183-1230 `isSupportedType`: all fields of a compound, but only the
first element of a slice. -/
def supportedT : TVal → Bool
  | .num .. | .str _ | .opaque _ => true
  | .compound _ vs => supportedAllT vs
  | .enum v _ _ => supportedT v
  | .slice t xs => supportedHeadT t xs
  | .field .. | .nil => false
/-- The fields. -/
def supportedAllT : List TVal → Bool
  | [] => true
  | v :: vs => supportedT v && supportedAllT vs
/-- The first element, or the type of the elements. -/
def supportedHeadT (t : TTy) : List TVal → Bool
  | [] => supportedTyT t
  | x :: _ => supportedT x
end

/-! ### Shape -/

/-- netcdf/hdf5/hdf5writer.go:578-593 `shouldUseVLen`. -/
def shouldUseVLenT : TVal → Bool
  | .slice t _ => (stripKinds t).1 == .str
  | _ => false

mutual
/-- netcdf/hdf5/writer_utils.go:614-627 `findMaxLen`. There are no strings among the bytes of an
opaque value, and the fields of a compound are structs. -/
def findMaxLenT : TVal → Nat
  | .slice _ xs => findMaxLensT xs
  | .str s => s.length
  | _ => 0
/-- The loop over the elements. -/
def findMaxLensT : List TVal → Nat
  | [] => 0
  | x :: xs => max (findMaxLenT x) (findMaxLensT xs)
end

/-- netcdf/hdf5/hdf5writer.go:498-504 and netcdf/hdf5/writer_utils.go:344-350. -/
def fixedLenT (v : TVal) : Nat :=
  if shouldUseVLenT v then 0
  else
    match v with
    | .slice .. | .str _ | .compound .. | .opaque _ => findMaxLenT v + 1
    | _ => 0

mutual
/-- netcdf/hdf5/hdf5writer.go:1008-1026 `getDimensionsRecursive`. -/
def getDimsT : TVal → List Nat
  | .enum v _ _ => getDimsT v
  | .slice _ xs => xs.length :: getDimsHeadT xs
  | _ => []
/-- Go on with the first element. -/
def getDimsHeadT : List TVal → List Nat
  | [] => []
  | x :: _ => getDimsT x
end

mutual
/-- netcdf/hdf5/hdf5writer.go:1032-1051 `getDimensionsLimited`. -/
def getDimsLimitedT : TVal → Nat → List Nat
  | .enum v _ _, n => getDimsLimitedT v n
  | .slice _ xs, n => if n = 0 then [] else xs.length :: getDimsLimitedHeadT xs (n - 1)
  | _, _ => []
/-- Go on with the first element. -/
def getDimsLimitedHeadT : List TVal → Nat → List Nat
  | [], _ => []
  | x :: _, n => getDimsLimitedT x n
end

/-- `t.Kind() == reflect.Slice` -/
def isKindSlice : TTy → Bool
  | .slice _ | .opaque | .compound => true
  | _ => false

/-- `reflect.Value.Len()` of a value whose kind is `Slice`. -/
def rowLenT : TVal → Nat
  | .slice _ xs => xs.length
  | .opaque b => b.length
  | .compound _ vs => vs.length
  | _ => 0

/-- netcdf/hdf5/hdf5writer.go:835-847, 904-914: the elements are slices (also named ones), not all of
one length. -/
def varyingT (elem : TTy) (xs : List TVal) : Bool :=
  match xs with
  | x :: xs => isKindSlice elem && xs.any fun y => rowLenT y != rowLenT x
  | [] => false

mutual
/-- netcdf/hdf5/hdf5writer.go:894-919: the loop of `getAttributeDimensions`. -/
def attrDimsLoop : TVal → List Nat
  | .slice e xs => xs.length :: (if varyingT e xs then [] else attrDimsHeadT xs)
  | _ => []
/-- Go on with the first element. -/
def attrDimsHeadT : List TVal → List Nat
  | [] => []
  | x :: _ => attrDimsLoop x
end

/-- netcdf/hdf5/hdf5writer.go:885-921 `getAttributeDimensions`. -/
def attrDimsT : TVal → List Nat
  | .enum v _ _ => attrDimsT v
  | v => attrDimsLoop v

mutual
/-- netcdf/hdf5/writer_utils.go:164-178 `navigateToFirst`; it is called with the number of plain
slices that were taken off the type, so it does not enter named ones. -/
def navigateT : TVal → Nat → TVal
  | .slice e xs, n => if n = 0 then .slice e xs else navigateHeadT e xs (n - 1)
  | v, _ => v
/-- The first element, or the zero value of its type. -/
def navigateHeadT (e : TTy) : List TVal → Nat → TVal
  | [], _ => zeroValT e
  | x :: _, n => navigateT x n
end

/-- netcdf/hdf5/writer_utils.go:463-472: the type behind at most `n` dimensions, and how many there
were. -/
def stripTyT : Nat → TTy → TTy × Nat
  | n + 1, .slice t => ((stripTyT n t).1, (stripTyT n t).2 + 1)
  | _, t => (t, 0)

/-- The first element of a slice or the zero value of its type (writer_utils.go:298-303). -/
def firstElemT : TVal → TVal
  | .slice _ (x :: _) => x
  | .slice e [] => zeroValT e
  | v => v

/-! ### Datatypes -/

mutual
/-- netcdf/hdf5/writer_utils.go:232-239: the first number. The kind of a named slice is `Slice`. -/
def firstScalar : TVal → TVal
  | .slice t xs => firstScalarHead t xs
  | .opaque [] => .num .u8 0
  | .opaque (b :: _) => .num .u8 b.toNat
  | .compound .. => .field [] .nil
  | v => v
/-- The first element, or the zero value of its type. -/
def firstScalarHead (t : TTy) : List TVal → TVal
  | [] => zeroValT (stripKinds t).1
  | x :: _ => firstScalar x
end

/-- The bits of the members, if all are numbers of this kind. -/
def memberBits (k : Kind) : List TVal → Option (List Nat)
  | [] => some []
  | .num k' n :: vs => if k' = k then (memberBits k vs).map (n :: ·) else none
  | _ => none

/-- netcdf/hdf5/writer_utils.go:230-288 `buildEnumDatatype`. `reflect.ValueOf(nil).Interface()`
panics. -/
def enumTy (vals : TVal) (names : List Bytes) (members : List TVal) : Res WTy :=
  match firstScalar vals with
  | .nil => .panic
  | .num k _ =>
    if k.isFloat then .err .unsupported
    else
      match memberBits k members with
      | some vs => .ok (.enum k names vs)
      | none => .err .unsupported
  | _ => .err .unsupported

mutual
/-- netcdf/hdf5/writer_utils.go:190-228, 290-313, 450-529 `buildCompoundDatatype`,
`buildVlenSequenceDatatype`, `buildDatatypeMessage`. The fuel bounds the depth.
`reflect.ValueOf(nil).Type()` panics. -/
def dtT : Nat → TVal → Nat → Res WTy
  | 0, _, _ => .panic
  | _ + 1, .enum vals names members, _ => enumTy vals names members
  | f + 1, v, nDims =>
    match (stripTyT nDims v.ty).1 with
    | .enum =>
      match navigateT v (stripTyT nDims v.ty).2 with
      | .enum vals names members => enumTy vals names members
      | _ => .panic
    | .compound =>
      match navigateT v (stripTyT nDims v.ty).2 with
      | .compound names vs =>
        match dtFieldsT f vs with
        | .ok ts => .ok (.compound names ts)
        | .err e => .err e
        | .panic => .panic
      | _ => .panic
    | .opaque =>
      match navigateT v (stripTyT nDims v.ty).2 with
      | .opaque b => .ok (.opaque b.length)
      | _ => .panic
    | .slice _ =>
      match dtT f (firstElemT (navigateT v (stripTyT nDims v.ty).2))
          (getDimsT (firstElemT (navigateT v (stripTyT nDims v.ty).2))).length with
      | .ok t => .ok (.vlenSeq t)
      | .err e => .err e
      | .panic => .panic
    | .num k => .ok (.num k)
    | .str => if shouldUseVLenT v then .ok .vlenStr else .ok (.fixStr (findMaxLenT v + 1))
    | .nil => .panic
    | .field => .err .unsupported
/-- netcdf/hdf5/writer_utils.go:209-225: the members of a compound. Strings are variable-length
strings. -/
def dtFieldsT : Nat → List TVal → Res (List WTy)
  | 0, _ => .panic
  | _ + 1, [] => .ok []
  | f + 1, v :: vs =>
    match (match v with | .str _ => Res.ok WTy.vlenStr | v => dtT f v 0) with
    | .err e => .err e
    | .panic => .panic
    | .ok t =>
      match dtFieldsT f vs with
      | .err e => .err e
      | .panic => .panic
      | .ok ts => .ok (t :: ts)
end

/-- The depth of a type. -/
def tyDepthT : TTy → Nat
  | .slice t => tyDepthT t + 1
  | _ => 0

mutual
/-- Enough fuel for the datatype of a value. -/
def weightT : TVal → Nat
  | .slice t xs => tyDepthT t + weightsT xs + 3
  | .compound _ vs => weightsT vs + 3
  | _ => 3
/-- The elements. -/
def weightsT : List TVal → Nat
  | [] => 0
  | x :: xs => weightT x + weightsT xs + 1
end

/-- `buildDatatypeMessage(val, nDims)`. -/
def datatypeOfT (v : TVal) (nDims : Nat) : Res WTy := dtT (weightT v) v nDims

/-! ### Data -/

/-- A descriptor in a variable: length, address of the heap, index. `uint32(len)` is cut to four
bytes by `leEnc`. -/
def descriptor (len addr idx : Nat) : Bytes := leEnc 4 len ++ leEnc 8 addr ++ leEnc 4 idx

/-- The bytes of numbers. -/
def numsBytes (be : Bool) : List TVal → Bytes
  | [] => []
  | .num k n :: xs => hostEnc be k.size n ++ numsBytes be xs
  | _ :: xs => numsBytes be xs

/-- `binary.Write` of a number or a slice of numbers; anything else has no fixed size. -/
def binWrite (be : Bool) : TVal → Res Bytes
  | .num k n => .ok (hostEnc be k.size n)
  | .slice (.num _) xs => .ok (numsBytes be xs)
  | .opaque b => .ok b
  | _ => .err .other

mutual
/-- netcdf/hdf5/writer_utils.go:417-448: one field in `writeCompoundValue`; the bytes and the indices of
variable-length elements that are left. -/
def writeFieldT (be : Bool) (heap : Option Heap) : TVal → List Nat → Res (Bytes × List Nat)
  | .num k bits, vlens => .ok (hostEnc be k.size bits, vlens)
  | .str s, vlens =>
    match heap with
    | some h => .ok (descriptor s.length h.addr ((h.indices.get s).getD 0), vlens)
    | none => .panic
  | .compound _ vs, vlens => writeFieldsT be heap vs vlens
  | .opaque b, vlens => .ok (b, vlens)
  | .enum v _ _, vlens =>
    match binWrite be v with
    | .ok b => .ok (b, vlens)
    | .err e => .err e
    | .panic => .panic
  | .slice _ xs, vlens =>
    match vlens, heap with
    | i :: vlens, some h => .ok (descriptor xs.length h.addr i, vlens)
    | _, _ => .panic
  | .field .., _ | .nil, _ => .err .unsupported
/-- netcdf/hdf5/writer_utils.go:417-448 `writeCompoundValue`. -/
def writeFieldsT (be : Bool) (heap : Option Heap) : List TVal → List Nat → Res (Bytes × List Nat)
  | [], vlens => .ok ([], vlens)
  | v :: vs, vlens =>
    match writeFieldT be heap v vlens with
    | .err e => .err e
    | .panic => .panic
    | .ok (b, vlens) =>
      match writeFieldsT be heap vs vlens with
      | .err e => .err e
      | .panic => .panic
      | .ok (bs, vlens) => .ok (b ++ bs, vlens)
end

mutual
/-- netcdf/hdf5/hdf5writer.go:519-576 `writeDataRecursive` and netcdf/hdf5/writer_utils.go:357-414
`writeAttributeDataRecursive`, which do the same. -/
def writeValT (be : Bool) (heap : Option Heap) (fixedLen : Nat) : TVal → Nat → List Nat → Res (Bytes × List Nat)
  | .compound _ vs, _, vlens => writeFieldsT be heap vs vlens
  | .opaque b, _, vlens => .ok (b, vlens)
  | .enum v _ _, dims, vlens => writeValT be heap fixedLen v dims vlens
  | .slice _ xs, dims, vlens =>
    if dims = 0 then
      match vlens, heap with
      | i :: vlens, some h => .ok (descriptor xs.length h.addr i, vlens)
      | _, _ => .panic
    else writeValsT be heap fixedLen xs (dims - 1) vlens
  | .str s, _, vlens =>
    if 0 < fixedLen then .ok (s ++ List.replicate (fixedLen - s.length) 0, vlens)
    else
      match heap with
      | some h => .ok (descriptor s.length h.addr ((h.indices.get s).getD 0), vlens)
      | none => .panic
  | .num k bits, _, vlens => .ok (hostEnc be k.size bits, vlens)
  | .field .., _, _ | .nil, _, _ => .err .unsupported
/-- The loop over the elements. -/
def writeValsT (be : Bool) (heap : Option Heap) (fixedLen : Nat) : List TVal → Nat → List Nat → Res (Bytes × List Nat)
  | [], _, vlens => .ok ([], vlens)
  | x :: xs, dims, vlens =>
    match writeValT be heap fixedLen x dims vlens with
    | .err e => .err e
    | .panic => .panic
    | .ok (b, vlens) =>
      match writeValsT be heap fixedLen xs dims vlens with
      | .err e => .err e
      | .panic => .panic
      | .ok (bs, vlens) => .ok (b ++ bs, vlens)
end

/-- netcdf/hdf5/writer_utils.go:315-355 `buildAttributeMessage`. -/
def attrMessageT (be : Bool) (heap : Option Heap) (vlens : List Nat) (name : Bytes) (v : TVal) : Res Bytes :=
  match datatypeOfT v (attrDimsT v).length with
  | .err e => .err e
  | .panic => .panic
  | .ok t =>
    match writeValT be heap (fixedLenT v) v (attrDimsT v).length vlens with
    | .err e => .err e
    | .panic => .panic
    | .ok (data, _) => .ok (buildAttr name (t.bytes be) (buildDataspace (attrDimsT v)) data)

/-! ### Collecting strings -/

mutual
/-- netcdf/hdf5/hdf5writer.go:661-674 `collectStringsActual`. -/
def collectAllT : Heap → TVal → Heap
  | h, .slice _ xs => collectAllsT h xs
  | h, .str s => h.addString s
  | h, _ => h
/-- The loop over the elements. -/
def collectAllsT : Heap → List TVal → Heap
  | h, [] => h
  | h, x :: xs => collectAllsT (collectAllT h x) xs
end

mutual
/-- netcdf/hdf5/hdf5writer.go:615-659 `collectStringsRecursive`. -/
def collectStringsT : Heap → TVal → Heap
  | h, .compound _ vs => collectFieldStringsT h vs
  | h, .enum v _ _ => collectStringsT h v
  | h, .slice t xs => if (stripKinds t).1 == .str then collectAllsT h xs else collectStringsLT h xs
  | h, _ => h
/-- netcdf/hdf5/hdf5writer.go:622-629: the fields of a compound. -/
def collectFieldStringsT : Heap → List TVal → Heap
  | h, [] => h
  | h, v :: vs => collectFieldStringsT (collectFieldStringT h v) vs
/-- netcdf/hdf5/hdf5writer.go:623-628: one field. -/
def collectFieldStringT : Heap → TVal → Heap
  | h, .str s => h.addString s
  | h, .compound _ vs => collectFieldStringsT h vs
  | h, .enum v _ _ => collectStringsT h v
  | h, .slice t xs => if (stripKinds t).1 == .str then collectAllsT h xs else collectStringsLT h xs
  | h, _ => h
/-- The elements of a slice. -/
def collectStringsLT : Heap → List TVal → Heap
  | h, [] => h
  | h, x :: xs => collectStringsLT (collectStringsT h x) xs
end

/-! ### Collecting sequences -/

/-- netcdf/hdf5/hdf5writer.go:866-876, 927-937: one element of a sequence. A compound is written
while the heap has no address yet (`h.addr` is 0) and no indices of sequences are set
(`hw.vlenHeapIndices` is still nil): strings in it get the address 0, and a sequence in it panics. -/
def seqElemT (be : Bool) (h : Heap) : TVal → Res Bytes
  | .compound _ vs =>
    match writeFieldsT be (some h) vs [] with
    | .ok (b, _) => .ok b
    | .err e => .err e
    | .panic => .panic
  | .opaque b => .ok b
  | .enum v _ _ => binWrite be v
  | v => binWrite be v

/-- The loop over the elements. -/
def seqElemsT (be : Bool) (h : Heap) : List TVal → Res Bytes
  | [] => .ok []
  | x :: xs =>
    match seqElemT be h x with
    | .err e => .err e
    | .panic => .panic
    | .ok b =>
      match seqElemsT be h xs with
      | .err e => .err e
      | .panic => .panic
      | .ok bs => .ok (b ++ bs)

/-- netcdf/hdf5/hdf5writer.go:863-881, 924-942 `serializeVlenToHeap`, `serializeVlenElement` of a value
whose kind is `Slice`. The fields of a compound have no fixed size. -/
def serializeT (be : Bool) (h : Heap) : TVal → Res (Heap × Nat)
  | .slice _ xs =>
    match seqElemsT be h xs with
    | .err e => .err e
    | .panic => .panic
    | .ok b => .ok (h.addObject b)
  | .opaque b => .ok (h.addObject b)
  | .compound _ [] => .ok (h.addObject [])
  | .compound _ (_ :: _) => .err .other
  | _ => .panic

/-- A loop of `serializeT`. -/
def serializesT (be : Bool) : Heap → List TVal → Res (Heap × List Nat)
  | h, [] => .ok (h, [])
  | h, x :: xs =>
    match serializeT be h x with
    | .err e => .err e
    | .panic => .panic
    | .ok (h, i) =>
      match serializesT be h xs with
      | .err e => .err e
      | .panic => .panic
      | .ok (h, is) => .ok (h, i :: is)

mutual
/-- netcdf/hdf5/hdf5writer.go:806-860 `collectVlenFromValue`: the sequences of an attribute. -/
def collectAttrVlenT (be : Bool) : Heap → TVal → Res (Heap × List Nat)
  | h, .compound _ vs => collectFieldVlensT be h vs
  | h, .enum v _ _ => collectAttrVlenT be h v
  | h, .slice e xs => if varyingT e xs then serializesT be h xs else collectAttrVlensT be h xs
  | h, _ => .ok (h, [])
/-- netcdf/hdf5/hdf5writer.go:812-824: the fields of a compound. -/
def collectFieldVlensT (be : Bool) : Heap → List TVal → Res (Heap × List Nat)
  | h, [] => .ok (h, [])
  | h, v :: vs =>
    match collectFieldVlenT be h v with
    | .err e => .err e
    | .panic => .panic
    | .ok (h, is) =>
      match collectFieldVlensT be h vs with
      | .err e => .err e
      | .panic => .panic
      | .ok (h, is') => .ok (h, is ++ is')
/-- netcdf/hdf5/hdf5writer.go:813-823: one field; a slice is one sequence. -/
def collectFieldVlenT (be : Bool) : Heap → TVal → Res (Heap × List Nat)
  | h, .slice t xs =>
    match serializeT be h (.slice t xs) with
    | .ok (h, i) => .ok (h, [i])
    | .err e => .err e
    | .panic => .panic
  | h, .compound _ vs => collectFieldVlensT be h vs
  | h, .enum v _ _ => collectAttrVlenT be h v
  | h, _ => .ok (h, [])
/-- The loop over the elements. -/
def collectAttrVlensT (be : Bool) : Heap → List TVal → Res (Heap × List Nat)
  | h, [] => .ok (h, [])
  | h, x :: xs =>
    match collectAttrVlenT be h x with
    | .err e => .err e
    | .panic => .panic
    | .ok (h, is) =>
      match collectAttrVlensT be h xs with
      | .err e => .err e
      | .panic => .panic
      | .ok (h, is') => .ok (h, is ++ is')
end

mutual
/-- netcdf/hdf5/hdf5writer.go:708-737, `hasVlenData` behind the test for an enumeration. -/
def hasVlenLoop : TVal → Nat → Bool
  | .slice e xs, n => if n = 0 then true else hasVlenHeadT e xs (n - 1)
  | .compound _ vs, n => if n = 0 then vs.any fun v => match v with | .slice .. => true | _ => false else false
  | _, _ => false
/-- The first element, or the type of the elements. -/
def hasVlenHeadT (e : TTy) : List TVal → Nat → Bool
  | [], _ => match e with | .slice _ => true | _ => false
  | x :: _, n => hasVlenLoop x n
end

/-- netcdf/hdf5/hdf5writer.go:703-737 `hasVlenData`. -/
def hasVlenT : TVal → Nat → Bool
  | .enum v _ _, n => hasVlenT v n
  | v, n => hasVlenLoop v n

mutual
/-- netcdf/hdf5/hdf5writer.go:741-766 `collectVlenElements`. The kind of a compound is `Slice`, so the
branch for the fields of compounds (lines 757-765) is never reached. -/
def collectVarVlenT (be : Bool) : Heap → TVal → Nat → Res (Heap × List Nat)
  | h, .enum v _ _, n => collectVarVlenT be h v n
  | h, .slice e xs, n =>
    if n = 0 then
      match serializeT be h (.slice e xs) with
      | .err e => .err e
      | .panic => .panic
      | .ok (h, i) => .ok (h, [i])
    else collectVarVlensT be h xs (n - 1)
  | h, .compound ns vs, n =>
    if n = 0 then
      match serializeT be h (.compound ns vs) with
      | .err e => .err e
      | .panic => .panic
      | .ok (h, i) => .ok (h, [i])
    else .ok (h, [])
  | h, .opaque b, n =>
    if n = 0 then
      match serializeT be h (.opaque b) with
      | .err e => .err e
      | .panic => .panic
      | .ok (h, i) => .ok (h, [i])
    else .ok (h, [])
  | h, _, _ => .ok (h, [])
/-- The loop over the elements. -/
def collectVarVlensT (be : Bool) : Heap → List TVal → Nat → Res (Heap × List Nat)
  | h, [], _ => .ok (h, [])
  | h, x :: xs, n =>
    match collectVarVlenT be h x n with
    | .err e => .err e
    | .panic => .panic
    | .ok (h, is) =>
      match collectVarVlensT be h xs n with
      | .err e => .err e
      | .panic => .panic
      | .ok (h, is') => .ok (h, is ++ is')
end

/-- netcdf/hdf5/hdf5writer.go:685-695, the body of `collectVlenData`. -/
def collectVarT (be : Bool) (h : Heap) (v : TVal) (nDims : Nat) : Res (Heap × List Nat) :=
  if hasVlenT v nDims then collectVarVlenT be h v nDims else .ok (h, [])

end Verif.H5
