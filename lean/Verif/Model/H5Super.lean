import Verif.Model.H5Checksum
/-!
The HDF5 superblock: netcdf/hdf5/hdf5writer.go:100-112, 364-379 and netcdf/hdf5/hdf5.go:371-516.
-/
namespace Verif.H5

/-- netcdf/hdf5/hdf5.go:25 `magic`. -/
def magic : Bytes := [0x89, 0x48, 0x44, 0x46, 0x0d, 0x0a, 0x1a, 0x0a]

/-- netcdf/hdf5/hdf5.go `invalidAddress`. -/
def invalidAddress : Nat := 0xffffffffffffffff

/-- netcdf/hdf5/hdf5writer.go:364-379 `writeSuperblockV2`. -/
def superblockV2 : Bytes :=
  magic ++ [2, 8, 8, 0] ++ leEnc 8 0 ++ leEnc 8 0xffffffffffffffff ++ leEnc 8 0 ++ leEnc 8 0 ++
    leEnc 4 0

/-- `binary.LittleEndian.PutUintNN(data[off:], ...)` with the bytes `b`. -/
def putAt (data : Bytes) (off : Nat) (b : Bytes) : Bytes :=
  data.take off ++ b ++ data.drop (off + b.length)

/-- netcdf/hdf5/hdf5writer.go:100-108, the addresses and the checksum are put in. -/
def finalizeSuperblock (data : Bytes) (rootAddr : Nat) : Res Bytes := do
  let eofAddr := data.length
  let data := putAt data 28 (leEnc 8 eofAddr)
  let data := putAt data 36 (leEnc 8 rootAddr)
  let sum ← checksum (data.take 44)
  pure (putAt data 44 (leEnc 4 sum.toNat))

/-- netcdf/hdf5/hdf5.go:508-516 `checkMagic`. -/
def checkMagic (len : Nat) (m : Bytes) : P Unit := do
  let b ← rdN len
  P.assert (b == m) .badMagic

/-- netcdf/hdf5/hdf5.go:405-421, 428-453: the version 0 and 1 fields between the version and the
base address. -/
def readSuperblockMidV01 (version : Nat) : P Unit := do
  let _ ← read8
  let b ← read8; checkVal 0 b
  let b ← read8; checkVal 0 b
  let b ← read8; checkVal 0 b
  let b ← read8; P.assert (b == 8) .offsetSize
  let b ← read8; checkVal 8 b
  let b ← read8; checkVal 0 b
  let s ← read16; P.assert (s == 4) .assertFail
  let _ ← read16
  let _ ← read32
  if version = 1 then do
    let s ← read16; P.assert (decide (0 < s)) .assertFail
    let s ← read16; checkVal 0 s
  else pure ()

/-- netcdf/hdf5/hdf5.go:459-502 for versions 0 and 1; the result is the root address. -/
def readSuperblockV01 (fileSize version : Nat) : P Nat := do
  readSuperblockMidV01 version
  let base ← read64; checkVal 0 base
  let fsIndex ← read64; checkVal invalidAddress fsIndex
  let eof ← read64; P.assert (decide (eof ≤ fileSize)) .truncated
  let _ ← read64
  let _ ← read64
  let root ← read64
  let cacheType ← read32
  let reserved ← read32; checkVal 0 reserved
  if cacheType = 1 then do
    let _ ← read64
    let _ ← read64
    pure root
  else pure root

/-- netcdf/hdf5/hdf5.go:422-502 for versions 2 and 3, up to the checksum; the result is the root
address and the address of the superblock extension. -/
def readSuperblockV23 (fileSize : Nat) : P (Nat × Nat) := do
  let b ← read8; P.assert (b == 8) .offsetSize
  let b ← read8; checkVal 8 b
  let _ ← read8
  let base ← read64; checkVal 0 base
  let ext ← read64
  let eof ← read64; P.assert (decide (eof ≤ fileSize)) .truncated
  let root ← read64
  pure (root, ext)

/-- netcdf/hdf5/hdf5.go:371-506 `readSuperblock`; the result is the root address and the address of
the superblock extension, which line 502-505 then reads like any object header. -/
def readSuperblock (file : Bytes) : Res (Nat × Nat) :=
  if ¬ 48 ≤ file.length then .err .corrupted
  else
    match newSeek file 0 48 with
    | .err e => .err e
    | .panic => .panic
    | .ok s =>
      match (do checkMagic 8 magic; read8 : P Nat) s with
      | .err e => .err e
      | .panic => .panic
      | .ok (version, s) =>
        if version = 0 ∨ version = 1 then
          match newSeek file s.pos ((if version = 0 then 96 else 100) - s.pos) with
          | .err e => .err e
          | .panic => .panic
          | .ok s => (readSuperblockV01 file.length version s).map fun r => (r.1, invalidAddress)
        else if version = 2 ∨ version = 3 then
          match readSuperblockV23 file.length s with
          | .err e => .err e
          | .panic => .panic
          | .ok (r, _) => (checkChecksum file 0 44).map fun _ => r
        else .err .version

end Verif.H5
