import Verif.Lemmas.H5Super
/-!
C25 (checksums of metadata blocks) and C26 (superblock).
-/
namespace Verif.H5

/-- C25. For every block of bytes, at every place in a file, the verification of the reader accepts
the stored checksum exactly when it is the one the writer computes for the block. -/
theorem C25_writer_and_reader_checksum_agree (pre data post : Bytes) (stored : Nat)
    (hs : stored < 2 ^ 32) (hf : (pre ++ data ++ leEnc 4 stored ++ post).length < 2 ^ 63)
    (c : UInt32) (hc : checksum data = .ok c) :
    checkChecksum (pre ++ data ++ leEnc 4 stored ++ post) pre.length data.length =
      if stored = c.toNat then .ok () else .err .assertFail := by
  rw [checkChecksum_block pre data post stored hs hf, hc]
  simp only
  by_cases h : c.toNat = stored
  · rw [if_pos h, if_pos h.symm]
  · rw [if_neg h, if_neg (fun e => h e.symm)]

/-- C25. The checksum is defined, without a run-time panic, for every block of fewer than 2^32
bytes, and is the lookup3 hash which the HDF5 format prescribes. -/
theorem C25_checksum_is_lookup3 (data : Bytes) (h : data.length < 2 ^ 32) :
    ∃ c, checksum data = .ok c ∧ c.toBitVec = Lookup3.hash data :=
  checksum_lookup3 data h

/-- The published value of lookup3 for this string, and a block that the reader accepts and refuses. -/
example : checksum (ascii "Four score and seven years ago") = .ok 0x17770551 := by decide +kernel
example : checkChecksum ([1, 2] ++ ascii "Four score and seven years ago" ++
    [0x51, 0x05, 0x77, 0x17] ++ [9]) 2 30 = .ok () := by decide +kernel
example : checkChecksum ([1, 2] ++ ascii "Four score and seven years ago" ++
    [0x51, 0x05, 0x77, 0x16] ++ [9]) 2 30 = .err .assertFail := by decide +kernel

/-- C26. Whatever follows the superblock and whatever the root address: the finished file keeps
what follows, and the reader accepts it with that root address and no extension, also with
additional bytes at the end. -/
theorem C26_superblock_round_trip (body : Bytes) (root : Nat) (hr : root < 2 ^ 64) (junk : Bytes)
    (hl : 48 + body.length + junk.length < 2 ^ 63) :
    ∃ file, finalizeSuperblock (superblockV2 ++ body) root = .ok file ∧
      file.length = 48 + body.length ∧ file.drop 48 = body ∧
      readSuperblock (file ++ junk) = .ok (root, invalidAddress) := by
  obtain ⟨sum, hsum, hfin⟩ := finalize_eq body root
  have hlen : (superHead (48 + body.length) root ++ leEnc 4 sum.toNat).length = 48 := by
    simp [superHead_length]
  refine ⟨_, hfin, ?_, ?_, ?_⟩
  · rw [List.length_append, hlen]
  · rw [List.drop_left' hlen]
  · have hb : (superHead (48 + body.length) root ++ leEnc 4 sum.toNat ++ (body ++ junk)).length =
        48 + body.length + junk.length := by
      rw [List.length_append, hlen, List.length_append]; omega
    rw [List.append_assoc, readSuperblock_v2 _ _ _ _ (by omega) hr sum.toNat_lt (by omega)]
    rw [if_pos (by omega), hsum]
    simp

/-- C26. Every proper prefix of a finished file is refused. -/
theorem C26_truncation_refused (body : Bytes) (root : Nat) (hr : root < 2 ^ 64) (file : Bytes)
    (hl : 48 + body.length < 2 ^ 63)
    (hfile : finalizeSuperblock (superblockV2 ++ body) root = .ok file) (n : Nat)
    (hn : n < file.length) :
    readSuperblock (file.take n) = if n < 48 then .err .corrupted else .err .truncated := by
  obtain ⟨sum, hsum, hfin⟩ := finalize_eq body root
  have hlen : (superHead (48 + body.length) root ++ leEnc 4 sum.toNat).length = 48 := by
    simp [superHead_length]
  rw [hfin] at hfile
  cases hfile
  rw [List.length_append, hlen] at hn
  by_cases h48 : n < 48
  · rw [if_pos h48]
    unfold readSuperblock
    rw [if_pos (by rw [List.length_take]; omega)]
  · rw [if_neg h48]
    rw [List.take_append, List.take_of_length_le (by omega), hlen]
    have hb : (superHead (48 + body.length) root ++ leEnc 4 sum.toNat ++
        body.take (n - 48)).length = n := by
      rw [List.length_append, hlen, List.length_take]; omega
    rw [readSuperblock_v2 _ _ _ _ (by omega) hr sum.toNat_lt (by omega)]
    rw [if_neg (by omega)]

/-- C26. A file that does not start with the HDF5 signature is refused. -/
theorem C26_bad_signature_refused (file : Bytes)
    (h : ¬ [0x89, 0x48, 0x44, 0x46, 0x0d, 0x0a, 0x1a, 0x0a] <+: file) :
    readSuperblock file = if 48 ≤ file.length then .err .badMagic else .err .corrupted :=
  readSuperblock_not_magic file h

/-- C26. A version 2 superblock with any other root address or end-of-file address than the one
the checksum was made for is refused, unless the changed block happens to have the same hash. -/
theorem C26_wrong_checksum_refused (eof root stored : Nat) (tail : Bytes) (he : eof < 2 ^ 64)
    (hr : root < 2 ^ 64) (hs : stored < 2 ^ 32)
    (hf : (superHead eof root ++ leEnc 4 stored ++ tail).length < 2 ^ 63)
    (hne : (Lookup3.hash (superHead eof root)).toNat ≠ stored) :
    (readSuperblock (superHead eof root ++ leEnc 4 stored ++ tail)).isErr = true := by
  rw [readSuperblock_v2 eof root stored tail he hr hs hf]
  obtain ⟨c, hc, hc2⟩ := checksum_lookup3 (superHead eof root) (by rw [superHead_length]; omega)
  rw [hc]
  split
  · simp only
    rw [if_neg]
    · rfl
    · intro e
      apply hne
      rw [← hc2, ← e]
      rfl
  · rfl

/-- A file of 60 bytes with its root at 48: it is accepted, cut off at 50 it is refused. -/
example : ∃ file, finalizeSuperblock (superblockV2 ++ List.replicate 12 7) 48 = .ok file ∧
    readSuperblock file = .ok (48, invalidAddress) ∧
    readSuperblock (file.take 50) = .err .truncated := by
  obtain ⟨file, h, hl, -, hr⟩ := C26_superblock_round_trip (List.replicate 12 7) 48 (by decide) []
    (by decide)
  rw [List.append_nil] at hr
  refine ⟨file, h, hr, ?_⟩
  rw [C26_truncation_refused _ 48 (by decide) file (by decide) h 50 (by rw [hl]; decide)]
  decide

end Verif.H5
