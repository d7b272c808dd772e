import Verif.Lemmas.H5Filters
/-!
C27 (shuffle) and C28 (Fletcher-32).
-/
namespace Verif.H5

/-! ### C27 -/

/-- C27, for buffers that consist of whole elements: the unshuffle filter undoes the shuffle filter
of HDF5. Missing: buffers with additional bytes, for which it fails (`C27_negation`). -/
theorem C27_unshuffle_inverse_partial (n : Nat) (hn : 0 < n) (data : Bytes)
    (hd : n ∣ data.length) : unshuffle (h5Shuffle n data) n = .ok data := by
  by_cases h1 : n = 1
  · subst h1
    unfold unshuffle
    rw [if_pos rfl]
    congr 1
    apply ext_getD _ _ (h5Shuffle_length 1 data)
    intro k hk
    rw [h5Shuffle_length] at hk
    have := h5Shuffle_get 1 data 0 k (by omega) (by rw [Nat.div_one]; exact hk)
    simpa using this
  · rw [unshuffle_h5Shuffle n (by omega) data, Nat.div_mul_cancel hd, Nat.mod_eq_zero_of_dvd hd]
    simp

/-- C27, all buffers: the whole elements come back; the bytes behind the last whole element are
lost, zeros take their place. -/
theorem C27_whole_elements_partial (n : Nat) (hn : 1 < n) (data : Bytes) :
    unshuffle (h5Shuffle n data) n =
      .ok (data.take (data.length / n * n) ++ List.replicate (data.length % n) 0) :=
  unshuffle_h5Shuffle n hn data

/-- C27, the reader: however the caller sizes its reads, it gets the unshuffled bytes in order. -/
theorem C27_reader_partial (n : Nat) (hn : 0 < n) (data rest : Bytes) (hd : n ∣ data.length)
    (lens : List Nat) (hp : ∀ l ∈ lens, 0 < l) (hl : lens.sum ≤ data.length) :
    (Unsh.mk (h5Shuffle n data ++ rest) none data.length n).reads lens =
      .ok (data.take lens.sum) := by
  have h := reads_eq lens (h5Shuffle n data) rest n data
    (C27_unshuffle_inverse_partial n hn data hd) (h5Shuffle_length n data).symm
    (by rw [h5Shuffle_length]; exact hl) hp
  rw [h5Shuffle_length] at h
  exact h

/-- C27 fails for a buffer that is not a multiple of the element size. -/
theorem C27_negation : ∃ (n : Nat) (data : Bytes), 0 < n ∧
    unshuffle (h5Shuffle n data) n ≠ .ok data := by
  refine ⟨2, [1, 2, 3], by decide, by decide⟩

/-- Three elements of 2 bytes. -/
example : h5Shuffle 2 [1, 2, 3, 4, 5, 6] = [1, 3, 5, 2, 4, 6] ∧
    unshuffle [1, 3, 5, 2, 4, 6] 2 = .ok [1, 2, 3, 4, 5, 6] ∧
    (Unsh.mk [1, 3, 5, 2, 4, 6] none 6 2).reads [1, 3] = .ok [1, 2, 3, 4] := by decide +kernel

/-! ### C28 -/

/-- C28, for data none of whose two sums is a non-zero multiple of 65535: for every sequence of
reads (sizes and numbers of bytes that the underlying reader gives) that goes to the end of the
data, the reader delivers the data if the stored sum is the Fletcher-32 sum of HDF5, and fails
otherwise. Missing: the other data (`C28_negation_sum`) and reads behind the end
(`C28_negation_reread`). -/
theorem C28_fletcher_partial (data rest : Bytes) (stored : Nat) (hs : stored < 2 ^ 32)
    (h1 : (beWords data).sum = 0 ∨ (beWords data).sum % 65535 ≠ 0)
    (h2 : sumOfSums 0 (beWords data) = 0 ∨ sumOfSums 0 (beWords data) % 65535 ≠ 0)
    (reqs : List (Nat × Nat)) (hpos : ∀ q ∈ reqs, 0 < q.1 ∧ 0 < q.2) (hne : reqs ≠ [])
    (hlen : data.length ≤ reqs.length) :
    ∃ fl, fletcher32Reader (data ++ leEnc 4 stored ++ rest) (data.length + 4) = .ok fl ∧
      drain fl reqs = if stored = h5Fletcher32 data then .ok data else .err .checksum := by
  refine ⟨_, by unfold fletcher32Reader; rw [if_pos (by omega)], ?_⟩
  rw [drain_eq [] data (leEnc 4 stored ++ rest) _
    ⟨by simp, by simp, rfl, ⟨[], [], rfl, rfl, rfl, Or.inl rfl⟩, rfl⟩ (by simp) reqs hpos hne hlen]
  rw [List.nil_append, codeSum_eq_h5 data h1 h2, List.take_left' (by simp),
    leDec_leEnc_of_lt (by simpa using hs)]
  by_cases h : h5Fletcher32 data = stored
  · rw [if_pos h, if_pos h.symm]
  · rw [if_neg h, if_neg (fun e => h e.symm)]

/-- C28, all data: no sequence of reads ever delivers anything but a prefix of the data. -/
theorem C28_only_data (data rest : Bytes) (stored : Nat) (fl : Fletcher)
    (hfl : fletcher32Reader (data ++ leEnc 4 stored ++ rest) (data.length + 4) = .ok fl)
    (reqs : List (Nat × Nat)) (b : Bytes) (h : drain fl reqs = .ok b) : b <+: data := by
  unfold fletcher32Reader at hfl
  rw [if_pos (by omega)] at hfl
  cases hfl
  exact drain_prefix [] data (leEnc 4 stored ++ rest) _
    ⟨by simp, by simp, rfl, ⟨[], [], rfl, rfl, rfl, Or.inl rfl⟩, rfl⟩ (by simp) reqs b h

/-- C28 fails: data whose sum is a multiple of 65535 is refused although the stored sum is the one
of HDF5. -/
theorem C28_negation_sum : ∃ data : Bytes, ∃ fl,
    fletcher32Reader (data ++ leEnc 4 (h5Fletcher32 data)) (data.length + 4) = .ok fl ∧
      drain fl [(data.length, data.length)] = .err .checksum := by
  refine ⟨[0xff, 0xff], _, rfl, ?_⟩
  decide +kernel

/-- C28 fails: after the whole of a block of odd length has been delivered, a read of zero bytes
(as at the end of netcdf/hdf5/hdf5.go:2456-2474 `readAll`) fails. -/
theorem C28_negation_reread : ∃ (data : Bytes) (fl fl' : Fletcher),
    fletcher32Reader (data ++ leEnc 4 (h5Fletcher32 data)) (data.length + 4) = .ok fl ∧
      fl.read data.length data.length = .ok (data, fl') ∧
      (fl'.read 0 0).map (·.1) = .err .checksum := by
  have h : ((Fletcher.mk ([1, 2, 3] ++ leEnc 4 (h5Fletcher32 [1, 2, 3])) 7 0 0 0 0 none).read 3 3).map
      (fun p => (p.1, (p.2.read 0 0).map (·.1))) = .ok ([1, 2, 3], .err .checksum) := by
    decide +kernel
  generalize hx : (Fletcher.mk ([1, 2, 3] ++ leEnc 4 (h5Fletcher32 [1, 2, 3])) 7 0 0 0 0 none).read
    3 3 = x at h
  cases x with
  | err e => cases h
  | panic => cases h
  | ok p =>
    obtain ⟨b, fl'⟩ := p
    simp only [Res.map, Res.ok.injEq, Prod.mk.injEq] at h
    refine ⟨[1, 2, 3], _, fl', rfl, ?_, h.2⟩
    rw [h.1] at hx
    exact hx

/-- A block of five bytes, read in three pieces. -/
example : (match fletcher32Reader ([1, 2, 3, 4, 5] ++ leEnc 4 (h5Fletcher32 [1, 2, 3, 4, 5])) 9 with
    | .ok fl => drain fl [(1, 1), (3, 2), (9, 9), (1, 1), (1, 1)]
    | _ => .panic) = .ok [1, 2, 3, 4, 5] := by decide +kernel

end Verif.H5
