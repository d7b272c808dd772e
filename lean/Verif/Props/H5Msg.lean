import Verif.Lemmas.H5Msg
/-!
C33 (dataspace), C36 (links) and the message level of C35 (attributes).
-/
namespace Verif.H5

/-- C33. The shape written in a dataspace message is the shape the reader returns, for every rank up
to 255 and all 64-bit lengths; the reader stops at the end of the message. -/
theorem C33_dataspace_round_trip (dims : List Nat) (pos : Nat) (rest : Bytes)
    (hr : dims.length ≤ 255) (h : ∀ d ∈ dims, d < 2 ^ 64) :
    readDataspace ⟨pos, buildDataspace dims ++ rest⟩ =
      .ok (dims, ⟨pos + (buildDataspace dims).length, rest⟩) :=
  readDataspace_ok dims pos rest hr h

example : ([3, 0, 2 ^ 64 - 1] : List Nat).length ≤ 255 ∧ ∀ d ∈ [3, 0, 2 ^ 64 - 1], d < 2 ^ 64 := by
  decide

/-- C33. A shape of rank 256 is read as a scalar: the bound of `C33_dataspace_round_trip` is
sharp. -/
theorem C33_rank_256_is_scalar (dims : List Nat) (pos : Nat) (h : dims.length = 256) :
    ∃ s, readDataspace ⟨pos, buildDataspace dims⟩ = .ok ([], s) := by
  have hb : buildDataspace dims = 1 :: UInt8.ofNat 256 :: 0 :: 0 ::
      (0 :: 0 :: 0 :: 0 :: (dims.flatMap (leEnc 8))) := by
    simp [buildDataspace, h]
  refine ⟨⟨pos + 8, dims.flatMap (leEnc 8)⟩, ?_⟩
  rw [hb]
  simp only [readDataspace, dataspaceType, P.bind_apply, read8_cons, UInt8.reduceToNat,
    show (UInt8.ofNat 256).toNat = 0 by decide,
    BEq.rfl, Bool.true_or, P.assert_true, ↓reduceIte, checkVal, read32_zeros,
    read64s, P.pure_apply, Nat.zero_ne_one, Nat.zero_mod, Nat.zero_div, and_false]

example : (List.replicate 256 1).length = 256 := List.length_replicate ..

/-- C36, part. A link message of a group is read back with its name and address. Not covered,
because the code fails: names of more than 255 bytes. -/
theorem C36_link_round_trip_partial (name : Bytes) (addr pos : Nat) (hn : name.length ≤ 255)
    (ha : addr < 2 ^ 64) :
    readLink ⟨pos, buildLink name addr⟩ =
      .ok ((name, addr, 0), ⟨pos + (buildLink name addr).length, []⟩) :=
  readLink_ok name addr pos hn ha

example : (ascii "temperature").length ≤ 255 := by decide

/-- C36 fails for a name of 256 bytes, whatever its bytes, unless they happen to be such that the
first eight of them are the address and the others are zero: the reader finds an empty name. -/
theorem C36_negation_256_bytes (name : Bytes) (addr pos : Nat) (hn : name.length = 256) :
    ∀ r s, readLink ⟨pos, buildLink name addr⟩ = .ok (r, s) → r.1 = [] := by
  intro r s h
  have hb : buildLink name addr = 1 :: 0 :: UInt8.ofNat 256 :: (name ++ leEnc 8 addr) := by
    simp [buildLink, hn]
  rw [hb] at h
  obtain ⟨n8, rest, hsplit, h8⟩ : ∃ n8 rest : Bytes, name ++ leEnc 8 addr = n8 ++ rest ∧
      n8.length = 8 := by
    refine ⟨(name ++ leEnc 8 addr).take 8, (name ++ leEnc 8 addr).drop 8,
      (List.take_append_drop ..).symm, ?_⟩
    simp only [List.length_take, List.length_append, leEnc_length]
    omega
  rw [hsplit] at h
  have h0 : ∀ p (b : Bytes), rdN 0 ⟨p, b⟩ = .ok ([], ⟨p, b⟩) := by
    intro p b
    simp [rdN]
  simp only [readLink, P.bind_apply, read8_cons, UInt8.reduceToNat, checkVal, BEq.rfl,
    P.assert_true, Nat.zero_mod, Nat.zero_div, Nat.zero_ne_one, ↓reduceIte, P.pure_apply,
    readEnc, Nat.pow_zero, show (UInt8.ofNat 256).toNat = 0 by decide, h0, read64,
    rdN_append 8 _ n8 _ h8, remLen_apply, checkZeroes] at h
  split at h
  · injection h with h
    injection h with h1 h2
    rw [← h1]
  · cases h
  · cases h

example : (List.replicate 256 (0x61 : UInt8)).length = 256 := List.length_replicate ..

/-- C35, part: the message. The name, the shape and the type of an attribute are read back; the
value is decoded from exactly the bytes the writer encoded it in. The value itself is treated in
`Props/H5Value`. Not covered, because the code fails: names with a NUL, names and types of 64 KB. -/
theorem C35_attribute_message_partial (name data : Bytes) (t : WTy) (dims : List Nat)
    (hn : (0 : UInt8) ∉ name) (hnl : name.length < 65535) (ht : t.Readable true)
    (htl : (t.bytes false).length < 65536) (hr : dims.length ≤ 255) (hd : ∀ d ∈ dims, d < 2 ^ 64)
    (d : AttrData) (hdata : attrData data t.dt = .ok d) :
    readAttribute ⟨0, buildAttr name (t.bytes false) (buildDataspace dims) data⟩ =
      .ok (⟨name, dims, t.dt, d⟩,
        ⟨(buildAttr name (t.bytes false) (buildDataspace dims) data).length, []⟩) := by
  rw [readAttribute_ok name data t dims hn hnl ht htl hr hd, hdata]

example : (WTy.num .i16).Readable true ∧
    attrData [1, 0, 2, 0] (WTy.num .i16).dt = .ok (.df [1, 0, 2, 0]) := by
  refine ⟨trivial, by decide⟩

/-- C35 fails for names that contain a NUL: they are cut there. -/
theorem C35_negation_nul_in_name : ∃ s,
    readAttribute ⟨0, buildAttr [97, 0, 98] ((WTy.num .i8).bytes false) (buildDataspace []) [5]⟩ =
      .ok (⟨[97], [], .fixed 1 true false, .df [5]⟩, s) := ⟨_, rfl⟩

/-- The layout message: the address and the size of the data. -/
theorem C38_layout_message_partial (addr size pos : Nat) (rest : Bytes) (ha : addr < 2 ^ 64 - 1)
    (hs : size < 2 ^ 64) :
    readLayout ⟨pos, buildLayout addr size ++ rest⟩ =
      .ok (.contiguous addr size, ⟨pos + (buildLayout addr size).length, rest⟩) :=
  readLayout_ok addr size pos rest ha hs

example : (48 : Nat) < 2 ^ 64 - 1 := by decide

end Verif.H5
