import Verif.Lemmas.H5Others
/-!
The superblock of a file as described in `Spec/H5Others`, and opening the file.
-/
namespace Verif.H5
open Fmt

/-! ### Superblock -/

/-- The part of an old superblock behind the version, without the last 16 bytes. -/
def oldMid (s : SuperOld) : Bytes :=
  leEnc 1 s.freeVersion ++ (leEnc 1 0 ++ (leEnc 1 0 ++ (leEnc 1 0 ++ (leEnc 1 8 ++ (leEnc 1 8 ++ (leEnc 1 0 ++
    (leEnc 2 4 ++ (leEnc 2 s.internalK ++ (leEnc 4 s.flags ++
    ((if s.version = 1 then leEnc 2 s.indexedK ++ leEnc 2 0 else []) ++
    (leEnc 8 0 ++ (leEnc 8 undefAddr ++ (leEnc 8 s.eof ++ (leEnc 8 s.driver ++
    (leEnc 8 s.nameOffset ++ (leEnc 8 s.root ++ (leEnc 4 s.cacheType ++ leEnc 4 0)))))))))))))))))

theorem old_bytes (s : SuperOld) : s.bytes = (magic ++ leEnc 1 s.version) ++ (oldMid s ++ s.scratch) := by
  unfold SuperOld.bytes oldMid
  rw [num_eq]
  generalize undefAddr = u
  simp only [ List.append_assoc, List.cons_append, List.nil_append, magic]

theorem oldMid_length (s : SuperOld) (h : s.version ≤ 1) : (oldMid s).length = if s.version = 0 then 71 else 75 := by
  have : s.version = 0 ∨ s.version = 1 := by omega
  unfold oldMid
  simp only [List.length_append, leEnc_length]
  rcases this with h | h
  · rw [if_neg (by omega), if_pos h, List.length_nil]
  · rw [if_pos (by omega), if_neg (by omega), List.length_append, leEnc_length, leEnc_length]

theorem super_mid (s : SuperOld) (hs : s.OK) (n : Nat) (heof : s.eof ≤ n) (hn : n < 2 ^ 63) :
    ∃ t, readSuperblockV01 n s.version ⟨0, oldMid s ++ s.scratch⟩ = .ok (s.root, t) := by
  obtain ⟨h1, h2, h3, h4, h5, h6, h7, h8, h9, h10, h11⟩ := hs
  have hmid : Parses (readSuperblockMidV01 s.version)
      (leEnc 1 s.freeVersion ++ (leEnc 1 0 ++ (leEnc 1 0 ++ (leEnc 1 0 ++ (leEnc 1 8 ++ (leEnc 1 8 ++ (leEnc 1 0 ++
        (leEnc 2 4 ++ (leEnc 2 s.internalK ++ (leEnc 4 s.flags ++
        (if s.version = 1 then leEnc 2 s.indexedK ++ leEnc 2 0 else []))))))))))) () := by
    unfold readSuperblockMidV01
    refine PL.bind (Parses.read8 h2) ?_
    refine PL.bind (Parses.read8 (by omega)) ?_
    refine PL.skip (checkVal_ok rfl) ?_
    refine PL.bind (Parses.read8 (by omega)) ?_
    refine PL.skip (checkVal_ok rfl) ?_
    refine PL.bind (Parses.read8 (by omega)) ?_
    refine PL.skip (checkVal_ok rfl) ?_
    refine PL.bind (Parses.read8 (by omega)) ?_
    refine PL.skip (P.assert_ok _ rfl) ?_
    refine PL.bind (Parses.read8 (by omega)) ?_
    refine PL.skip (checkVal_ok rfl) ?_
    refine PL.bind (Parses.read8 (by omega)) ?_
    refine PL.skip (checkVal_ok rfl) ?_
    refine PL.bind (Parses.read16 (by omega)) ?_
    refine PL.skip (P.assert_ok _ rfl) ?_
    refine PL.bind (Parses.read16 h3) ?_
    refine PL.bind (Parses.read32 h4) ?_
    by_cases hv : s.version = 1
    · rw [if_pos hv, if_pos hv]
      refine PL.bind (Parses.read16 h6) ?_
      refine PL.skip (P.assert_ok _ (by simpa using h5)) ?_
      refine PL.map (Parses.read16 (by omega)) ?_
      intro s
      rfl
    · rw [if_neg hv, if_neg hv]
      exact PL.pure _
  have hp : Parses (readSuperblockV01 n s.version)
      (oldMid s ++ (if s.cacheType = 1 then s.scratch else [])) s.root := by
    have e : oldMid s ++ (if s.cacheType = 1 then s.scratch else []) =
        (leEnc 1 s.freeVersion ++ (leEnc 1 0 ++ (leEnc 1 0 ++ (leEnc 1 0 ++ (leEnc 1 8 ++ (leEnc 1 8 ++ (leEnc 1 0 ++
        (leEnc 2 4 ++ (leEnc 2 s.internalK ++ (leEnc 4 s.flags ++
        (if s.version = 1 then leEnc 2 s.indexedK ++ leEnc 2 0 else []))))))))))) ++
        (leEnc 8 0 ++ (leEnc 8 undefAddr ++ (leEnc 8 s.eof ++ (leEnc 8 s.driver ++
        (leEnc 8 s.nameOffset ++ (leEnc 8 s.root ++ (leEnc 4 s.cacheType ++ (leEnc 4 0 ++
        (if s.cacheType = 1 then s.scratch else []))))))))) := by
      unfold oldMid
      generalize undefAddr = u
      simp only [List.append_assoc]
    rw [e]
    unfold readSuperblockV01
    refine PL.bind hmid ?_
    refine PL.bind (Parses.read64 (by omega)) ?_
    refine PL.skip (checkVal_ok rfl) ?_
    refine PL.bind (Parses.read64 undef_lt) ?_
    refine PL.skip (checkVal_ok undef_invalid) ?_
    refine PL.bind (Parses.read64 (by omega)) ?_
    refine PL.skip (P.assert_ok _ (by simpa using heof)) ?_
    refine PL.bind (Parses.read64 h7) ?_
    refine PL.bind (Parses.read64 h8) ?_
    refine PL.bind (Parses.read64 h9) ?_
    refine PL.bind (Parses.read32 h10) ?_
    refine PL.bind (Parses.read32 (by omega)) ?_
    refine PL.skip (checkVal_ok rfl) ?_
    by_cases hc : s.cacheType = 1
    · rw [if_pos hc, if_pos hc]
      obtain ⟨x, y, hx, hy, rfl'⟩ : ∃ x y : Bytes, x.length = 8 ∧ y.length = 8 ∧ s.scratch = x ++ y :=
        ⟨s.scratch.take 8, s.scratch.drop 8, by simp [h11], by simp [h11], by simp⟩
      rw [rfl']
      refine PL.bind (Parses.read64' hx) ?_
      refine PL.map (Parses.read64' hy) ?_
      intro s
      rfl
    · rw [if_neg hc, if_neg hc]
      exact PL.pure _
  by_cases hc : s.cacheType = 1
  · rw [if_pos hc] at hp
    exact ⟨_, hp.all 0⟩
  · rw [if_neg hc, List.append_nil] at hp
    exact ⟨_, hp.apply 0 s.scratch⟩

theorem super_ok {file : Bytes} (hf : file.length < 2 ^ 63) {root ext : Nat} (h : SuperAt file root ext) :
    readSuperblock file = .ok (root, ext) := by
  have hhead : ∀ v, v < 256 → Parses (do checkMagic 8 magic; read8) (magic ++ leEnc 1 v) v := fun v hv => by
    refine PL.bind (Parses.magic rfl) ?_
    exact Parses.read8 hv
  rcases h with ⟨s, hs, heof, rfl, rfl, hat⟩ | ⟨version, flags, eof, hv, hfl, heof, hroot, hext, hat⟩
  · have h1 : s.version ≤ 1 := hs.1
    have hsc : s.scratch.length = 16 := hs.2.2.2.2.2.2.2.2.2.2
    rw [old_bytes] at hat
    have hml := oldMid_length s h1
    have hlen : (magic ++ leEnc 1 s.version).length = 9 := by simp [magic]
    have hR : (oldMid s ++ s.scratch).length = if s.version = 0 then 87 else 91 := by
      rw [List.length_append, hml, hsc]
      split <;> rfl
    have hne : oldMid s ++ s.scratch ≠ [] := by
      intro e
      rw [e] at hR
      split at hR <;> simp at hR
    have hle := hat.le (by simp [magic])
    rw [List.length_append, hlen] at hle
    have hge : 87 ≤ (oldMid s ++ s.scratch).length := by rw [hR]; split <;> omega
    have hat2 : At file 9 (oldMid s ++ s.scratch) := by
      have := hat.app.2
      rwa [hlen] at this
    have hat1 : At file 0 (magic ++ leEnc 1 s.version ++ (oldMid s ++ s.scratch).take 39) := by
      refine (At.app (c := (oldMid s ++ s.scratch).drop 39) ?_).1
      rw [List.append_assoc, List.take_append_drop]
      exact hat
    have hs1 : newSeek file 0 48 = .ok ⟨0, magic ++ leEnc 1 s.version ++ (oldMid s ++ s.scratch).take 39⟩ := by
      have := newSeek_at hat1 (n := 48) (by rw [List.length_append, hlen, List.length_take]; omega) hf (by omega)
      exact this
    unfold readSuperblock
    rw [if_neg (by omega), hs1]
    have e := (hhead s.version (by omega)).apply 0 ((oldMid s ++ s.scratch).take 39)
    rw [hlen] at e
    simp only [e, Nat.zero_add]
    rw [if_pos (by omega)]
    have hs2 : newSeek file 9 ((if s.version = 0 then 96 else 100) - ((9 : Nat) : Int)) =
        .ok ⟨0, oldMid s ++ s.scratch⟩ := by
      have := newSeek_at hat2 hR hf (by split <;> omega)
      rw [← this]
      congr 1
      split <;> rfl
    rw [hs2]
    obtain ⟨t, ht⟩ := super_mid s hs file.length heof hf
    simp only [ht]
    rfl
  · have hl : (superNew version flags ext eof root).length = 44 := by
      simp [superNew, num_eq]
    have hbl := block_length (superNew version flags ext eof root)
    have hle := hat.le (block_ne _)
    have hs : newSeek file 0 48 = .ok ⟨0, block (superNew version flags ext eof root)⟩ := by
      have := newSeek_at hat (n := 48) (by omega) hf (by omega)
      exact this
    have e2 := checksum_at hat hl hf (by omega)
    have hp : Parses (readSuperblockV23 file.length) (leEnc 1 8 ++ (leEnc 1 8 ++ (leEnc 1 flags ++
        (leEnc 8 0 ++ (leEnc 8 ext ++ (leEnc 8 eof ++ leEnc 8 root)))))) (root, ext) := by
      unfold readSuperblockV23
      refine PL.bind (Parses.read8 (by omega)) ?_
      refine PL.skip (P.assert_ok _ rfl) ?_
      refine PL.bind (Parses.read8 (by omega)) ?_
      refine PL.skip (checkVal_ok rfl) ?_
      refine PL.bind (Parses.read8 hfl) ?_
      refine PL.bind (Parses.read64 (by omega)) ?_
      refine PL.skip (checkVal_ok rfl) ?_
      refine PL.bind (Parses.read64 hext) ?_
      refine PL.bind (Parses.read64 (by omega)) ?_
      refine PL.skip (P.assert_ok _ (by simpa using heof)) ?_
      refine PL.map (Parses.read64 hroot) ?_
      intro s
      rfl
    have hb : block (superNew version flags ext eof root) = (magic ++ leEnc 1 version) ++
        ((leEnc 1 8 ++ (leEnc 1 8 ++ (leEnc 1 flags ++
        (leEnc 8 0 ++ (leEnc 8 ext ++ (leEnc 8 eof ++ leEnc 8 root)))))) ++
        num 4 (Lookup3.hash (superNew version flags ext eof root)).toNat) := by
      simp only [block, superNew, num_eq, List.append_assoc, List.cons_append, List.nil_append, magic]
    unfold readSuperblock
    rw [if_neg (by omega), hs, hb]
    have e := (hhead version (by omega)).apply 0 ((leEnc 1 8 ++ (leEnc 1 8 ++ (leEnc 1 flags ++
        (leEnc 8 0 ++ (leEnc 8 ext ++ (leEnc 8 eof ++ leEnc 8 root)))))) ++
        num 4 (Lookup3.hash (superNew version flags ext eof root)).toNat)
    simp only [e]
    rw [if_neg (by omega), if_pos hv, hp.apply]
    simp only [e2]
    rfl

/-- The whole file. -/
theorem file_ok {file : Bytes} (hf : file.length < 2 ^ 63) {o : Obj} (h : FileHolds file o) : OpensTo file o := by
  obtain ⟨root, ext, i, as, ls, kids1, kids2, hsup, hroot, hext, hh, ha, hl, hk, hn, hd, rfl⟩ := h
  obtain ⟨-, -, N, hN⟩ := good hf hh
  obtain ⟨M, hM⟩ := dump_ok (i := { i with isGroup := true }) hf ha hl (good hf hk)
  have hn1 : (names kids1).Nodup := by
    rw [List.map_append] at hn
    exact (List.nodup_append.mp hn).1
  rw [allAddrs_append] at hd
  have hd1 := (List.nodup_append.mp hd).1
  have hE : ∃ K, ∀ fuel, K ≤ fuel → ∀ f : List Nat → Res Obj, (if ext ≠ invalidAddress then
      (walk file fuel (.header ext) {}).map (·.addrs) >>= f else f []) = f [] := by
    by_cases hu : ext = undefAddr
    · exact ⟨0, fun fuel _ f => by rw [if_neg (by simp [← undef_invalid, hu])]⟩
    · obtain ⟨e, he⟩ := hext.resolve_left hu
      obtain ⟨-, -, K, hK⟩ := good hf he
      refine ⟨K, fun fuel hfuel f => ?_⟩
      rw [if_pos (show ext ≠ invalidAddress from hu)]
      have e := hK fuel hfuel {} [] [] rfl (by simp [names]) (by simp [allAddrs])
      rw [show ({} : St) = ⟨{}, [], []⟩ from rfl, e]
      rfl
  obtain ⟨K, hK⟩ := hE
  refine ⟨max K (max N M), ?_⟩
  unfold openN
  rw [super_ok hf hsup, Res.bind_ok]
  simp only []
  refine (hK _ (by omega) _).trans ?_
  rw [if_neg (show root ≠ invalidAddress from hroot)]
  have e := hN (max K (max N M)) (by omega) {} [] [] rfl hn1 (by simpa using hd1)
  rw [show ({ addrs := [] } : St) = ⟨{}, [], []⟩ from rfl, e, Res.bind_ok]
  simp only []
  rw [hM (max K (max N M)) (by omega) kids1 _ hn (by simpa using hd), Res.bind_ok]
  rfl

end Verif.H5
