import Verif.Model.GoVal
/-!
Header messages as the HDF5 file format specification (version 3, sections IV.A.2) defines them, for
the variants that other programs write. Written without the reader.
-/
namespace Verif.H5.Fmt

/-- A number of `w` bytes, the lowest first. -/
def num (w n : Nat) : Bytes := leEnc w n

/-- One bit of a flag byte. -/
def bit (n : Nat) (b : Bool) : Nat := if b then 2 ^ n else 0

/-- IV.A.2.b, version 1: shape and, if given, maximum shape. -/
def dataspace1 (dims : List Nat) (max : Option (List Nat)) : Bytes :=
  num 1 1 ++ num 1 dims.length ++ num 1 (bit 0 max.isSome) ++ num 1 0 ++ num 4 0 ++
    dims.flatMap (num 8) ++ (max.getD []).flatMap (num 8)

/-- IV.A.2.b, version 2: `ty` is 0 (scalar), 1 (simple) or 2 (null). -/
def dataspace2 (ty : Nat) (dims : List Nat) (max : Option (List Nat)) : Bytes :=
  num 1 2 ++ num 1 dims.length ++ num 1 (bit 0 max.isSome) ++ num 1 ty ++
    dims.flatMap (num 8) ++ (max.getD []).flatMap (num 8)

/-- IV.A.2.c: the version, the two addresses and, if given, the largest creation index and the
address of the index by creation order. -/
def linkInfo (maxIndex byOrder : Option Nat) (heap btree : Nat) : Bytes :=
  num 1 0 ++ num 1 (bit 0 maxIndex.isSome + bit 1 byOrder.isSome) ++
    (maxIndex.map (num 8)).getD [] ++ num 8 heap ++ num 8 btree ++ (byOrder.map (num 8)).getD []

/-- IV.A.2.v: attribute info; the largest creation index has two bytes. -/
def attributeInfo (maxIndex byOrder : Option Nat) (heap btree : Nat) : Bytes :=
  num 1 0 ++ num 1 (bit 0 maxIndex.isSome + bit 1 byOrder.isSome) ++
    (maxIndex.map (num 2)).getD [] ++ num 8 heap ++ num 8 btree ++ (byOrder.map (num 8)).getD []

/-- IV.A.2.k: group info with, if given, phase change values and estimates. -/
def groupInfo (phase est : Option (Nat × Nat)) : Bytes :=
  num 1 0 ++ num 1 (bit 0 phase.isSome + bit 1 est.isSome) ++
    (phase.map fun p => num 2 p.1 ++ num 2 p.2).getD [] ++
    (est.map fun p => num 2 p.1 ++ num 2 p.2).getD []

/-- IV.A.2.g: a hard link. The length of the name has `2 ^ w` bytes; the type byte of a hard link (0)
may be stored or not; creation order and character set are optional. -/
def hardLink (w : Nat) (typeStored : Bool) (order charset : Option Nat) (name : Bytes) (addr : Nat) :
    Bytes :=
  num 1 1 ++ num 1 (w + bit 2 order.isSome + bit 3 typeStored + bit 4 charset.isSome) ++
    (if typeStored then num 1 0 else []) ++ (order.map (num 8)).getD [] ++
    (charset.map (num 1)).getD [] ++ num (2 ^ w) name.length ++ name ++ num 8 addr

/-- IV.A.2.i, version 3 (and 4, which is the same here): compact. -/
def compact (version : Nat) (data : Bytes) : Bytes :=
  num 1 version ++ num 1 0 ++ num 2 data.length ++ data

/-- IV.A.2.i, version 3 or 4: contiguous. -/
def contiguous (version addr size : Nat) : Bytes :=
  num 1 version ++ num 1 1 ++ num 8 addr ++ num 8 size

/-- IV.A.2.i, version 3: chunked, with the lengths of a chunk and the size of an element. -/
def chunked (addr : Nat) (chunk : List Nat) (elemSize : Nat) : Bytes :=
  num 1 3 ++ num 1 2 ++ num 1 (chunk.length + 1) ++ num 8 addr ++ chunk.flatMap (num 4) ++
    num 4 elemSize

/-- The address that means "nothing there". -/
def undefAddr : Nat := 2 ^ 64 - 1

/-- A filter: number, name (padded with NULs to a multiple of eight), client data. -/
structure Filter where
  id : Nat
  name : Bytes
  optional : Bool
  cdv : List Nat

/-- IV.A.2.l, one filter of version 1: client data are padded to an even number. -/
def filter1 (f : Filter) : Bytes :=
  num 2 f.id ++ num 2 f.name.length ++ num 2 (bit 0 f.optional) ++ num 2 f.cdv.length ++ f.name ++
    f.cdv.flatMap (num 4) ++ (if f.cdv.length % 2 = 1 then num 4 0 else [])

/-- IV.A.2.l, one filter of version 2 with a number below 256: no name. -/
def filter2 (f : Filter) : Bytes :=
  num 2 f.id ++ num 2 (bit 0 f.optional) ++ num 2 f.cdv.length ++ f.cdv.flatMap (num 4)

/-- IV.A.2.l, version 1. -/
def pipeline1 (fs : List Filter) : Bytes :=
  num 1 1 ++ num 1 fs.length ++ num 2 0 ++ num 4 0 ++ fs.flatMap filter1

/-- IV.A.2.l, version 2. -/
def pipeline2 (fs : List Filter) : Bytes :=
  num 1 2 ++ num 1 fs.length ++ fs.flatMap filter2

/-- A fill value message: not set, explicitly undefined, or a value. -/
inductive Fill
  | notSet
  | undefined
  | value (b : Bytes)

/-- IV.A.2.f, version 1: the size is always there, zero when there is no value. -/
def fill1 (alloc write : Nat) : Fill → Bytes
  | .value b => num 1 1 ++ num 1 alloc ++ num 1 write ++ num 1 1 ++ num 4 b.length ++ b
  | _ => num 1 1 ++ num 1 alloc ++ num 1 write ++ num 1 0 ++ num 4 0

/-- IV.A.2.f, version 2: the value is there when the fourth byte says so. -/
def fill2 (alloc write : Nat) : Fill → Bytes
  | .value b => num 1 2 ++ num 1 alloc ++ num 1 write ++ num 1 1 ++ num 4 b.length ++ b
  | _ => num 1 2 ++ num 1 alloc ++ num 1 write ++ num 1 0

/-- IV.A.2.f, version 3: all in one flag byte. -/
def fill3 (alloc write : Nat) : Fill → Bytes
  | .notSet => num 1 3 ++ num 1 (alloc + 4 * write)
  | .undefined => num 1 3 ++ num 1 (alloc + 4 * write + 16)
  | .value b => num 1 3 ++ num 1 (alloc + 4 * write + 32) ++ num 4 b.length ++ b

/-- Zeros up to a multiple of eight bytes. -/
def padded (b : Bytes) : Bytes := b ++ List.replicate ((8 - b.length % 8) % 8) 0

/-- IV.A.2.m: an attribute from its name, datatype and dataspace messages and data. The name ends
with a NUL. In version 1 name, datatype and dataspace are padded, in versions 2 and 3 nothing is. -/
def attr (version : Nat) (name dt ds data : Bytes) : Bytes :=
  num 1 version ++ num 1 0 ++ num 2 (name.length + 1) ++ num 2 dt.length ++ num 2 ds.length ++
    (if version = 3 then num 1 0 else []) ++
    (if version = 1 then padded (name ++ [0]) ++ padded dt ++ padded ds else (name ++ [0]) ++ dt ++ ds) ++
    data

end Verif.H5.Fmt
