import Verif.Props.CdfSlice
/-!
C15, C16, C17: opening CDF files. `openCdf ma file` is `Open` on a file with contents `file` when
allocations of up to `ma` bytes succeed; its outcome is a handle, a Go `error` or a run-time panic.
-/
namespace Verif.Cdf

/-! ### C17 -/

/-- **C17.** An accepted file starts with a header `pre` that alone decides how it opens - anything
after it may be changed - and every proper prefix of the header is refused with an end-of-file
error. (For every accepted file, whoever wrote it.) -/
theorem C17_truncated {ma : Nat} {file : Bytes} {h : Hdr} (ho : openCdf ma file = .ok h) :
    ∃ pre rest, file = pre ++ rest ∧ (∀ t, openCdf ma (pre ++ t) = .ok h) ∧
      ∀ q, q <+: pre → q ≠ pre → openCdf ma q = .err .eof := by
  unfold openCdf at ho
  cases hr : readHeader ma file with
  | err e => rw [hr] at ho; cases ho
  | panic => rw [hr] at ho; cases ho
  | ok r =>
    obtain ⟨h', s'⟩ := r
    rw [hr] at ho
    simp only [Res.ok.injEq] at ho
    subst ho
    obtain ⟨pre, h1, h2, h3⟩ := good_readHeader ma file h' s' hr
    refine ⟨pre, s', h1, ?_, ?_⟩
    · intro t; unfold openCdf; rw [h2 t]
    · intro q hq hne; unfold openCdf; rw [h3 q hq hne]

-- the header of the example file has 80 bytes; 79 are refused
example : (openCdf 100 (fileInt 2)).isOk = true ∧
    openCdf 100 ((fileInt 2).take 79) = .err .eof ∧
    (openCdf 100 ((fileInt 2).take 80)).isOk = true := by
  refine ⟨by decide +kernel, ?_, by decide +kernel⟩
  have : (match openCdf 100 ((fileInt 2).take 79) with | .err .eof => true | _ => false) = true := by
    decide +kernel
  split at this
  · assumption
  · cases this

/-! ### C16 -/

/-- **C16.** If a byte string is accepted as CDF then: it has a valid magic and version; it has at
most 1024 dimensions; `ListVariables` has no repetitions and lists exactly the variables that
`GetVarGetter` can find; and each variable has at most 1024 dimensions, an offset and dimension
ids in range of `uint64`. -/
theorem C16_sane {ma : Nat} {file : Bytes} {h : Hdr} (ho : openCdf ma file = .ok h) :
    (file.take 4 = ascii "CDF" ++ [1] ∨ file.take 4 = ascii "CDF" ++ [2] ∨
      file.take 4 = ascii "CDF" ++ [5]) ∧
    h.listDimensions.length ≤ 1024 ∧ h.listVariables.Nodup ∧
    (∀ name, name ∈ h.listVariables ↔ getVarCommon h name ≠ .err .notFound) ∧
    ∀ name g, getVarCommon h name = .ok g →
      name ∈ h.listVariables ∧ g.vr.name = name ∧ g.dimNames.length = g.dimLengths.length ∧
      g.dimLengths.length ≤ 1024 ∧ g.vr.begin_ < 2 ^ 64 ∧ ∀ n ∈ g.dimNames, n ∈ h.listDimensions := by
  have hi := openCdf_inv ho
  have hvd : ∀ ids i r u, varDims h ids i = .ok (r, u) →
      r.length = ids.length ∧ ∀ x ∈ r, x.2 ∈ h.listDimensions := by
    intro ids
    induction ids with
    | nil => intro i r u hv; simp [varDims] at hv; rw [hv.1]; simp
    | cons id ids ih =>
      intro i r u hv
      unfold varDims at hv
      cases hd : h.dims[id]? with
      | none => rw [hd] at hv; cases hv
      | some d =>
        rw [hd] at hv
        simp only at hv
        split at hv
        · cases hv
        · rw [Res.bind_eq_ok] at hv
          obtain ⟨⟨r1, u1⟩, g1, g2⟩ := hv
          simp only [Res.pure_eq, Res.ok.injEq, Prod.mk.injEq] at g2
          obtain ⟨rfl, _⟩ := g2
          obtain ⟨e1, e2⟩ := ih _ _ _ g1
          refine ⟨by simp [e1], ?_⟩
          intro x hx
          rcases List.mem_cons.mp hx with rfl | hx
          · exact List.mem_map_of_mem (List.mem_of_getElem? hd)
          · exact e2 x hx
  have hvdn : ∀ ids i, varDims h ids i ≠ .err .notFound := by
    intro ids
    induction ids with
    | nil => intro i hv; cases hv
    | cons id ids ih =>
      intro i hv
      unfold varDims at hv
      cases hd : h.dims[id]? with
      | none => rw [hd] at hv; cases hv
      | some d =>
        rw [hd] at hv
        simp only at hv
        split at hv
        · cases hv
        · cases hc : varDims h ids (i + 1) with
          | ok r => rw [hc] at hv; cases hv
          | err e =>
            rw [hc] at hv
            simp only [Res.bind_err, Res.err.injEq] at hv
            exact ih _ (by rw [hc, hv])
          | panic => rw [hc] at hv; cases hv
  refine ⟨?_, by simpa [Hdr.listDimensions] using hi.ndims, hi.nodup, ?_, ?_⟩
  · unfold openCdf at ho
    cases hr : readHeader ma file with
    | err e => rw [hr] at ho; cases ho
    | panic => rw [hr] at ho; cases ho
    | ok r =>
      unfold readHeader at hr
      obtain ⟨b, s1, h1, hr⟩ := P.bind_eq_ok hr
      have hl := rdN_length h1
      have hb : b = file.take 4 := by
        unfold rdN at h1
        split at h1
        · simp only [Res.ok.injEq, Prod.mk.injEq] at h1; exact h1.1.symm
        · cases h1
      split at hr
      · cases hr
      · rename_i hm
        simp only at hr
        split at hr
        · rename_i hv
          rw [← hb]
          have hm' : b.take 3 = ascii "CDF" := by simpa using hm
          match b, hl, hm', hv with
          | [b0, b1, b2, b3], _, hm', hv =>
            simp only [List.take_succ_cons, List.take_zero] at hm'
            have e : ([b0, b1, b2, b3] : Bytes) = [b0, b1, b2] ++ [b3] := rfl
            rw [e, hm']
            simp only [List.getD_cons_succ, List.getD_cons_zero] at hv
            rcases hv with hv | hv | hv
            · left; rw [show b3 = 1 from UInt8.toNat.inj hv]
            · right; left; rw [show b3 = 2 from UInt8.toNat.inj hv]
            · right; right; rw [show b3 = 5 from UInt8.toNat.inj hv]
        · cases hr
  · intro name
    rw [show (name ∈ h.listVariables) = (name ∈ h.vars.visible) from rfl, hi.mem]
    unfold getVarCommon
    cases hv : h.vars.get name with
    | none => simp
    | some v =>
      simp only [Option.isSome_some, true_iff]
      cases hc : varDims h v.dimids 0 with
      | ok r =>
        obtain ⟨r, u⟩ := r
        simp only [Res.bind_ok]
        cases NcType.ofCode v.vType <;> simp
      | err e =>
        simp only [Res.bind_err, ne_eq, Res.err.injEq]
        intro he
        exact hvdn _ _ (by rw [hc, he])
      | panic => simp
  · intro name g hg
    unfold getVarCommon at hg
    cases hv : h.vars.get name with
    | none => simp [hv] at hg
    | some v =>
      obtain ⟨hn, hvi⟩ := hi.vars name v hv
      simp only [hv] at hg
      rw [Res.bind_eq_ok] at hg
      obtain ⟨⟨r, u⟩, h1, h2⟩ := hg
      simp only at h2
      obtain ⟨e1, e2⟩ := hvd _ _ _ _ h1
      cases ht : NcType.ofCode v.vType with
      | none => simp [ht] at h2
      | some ty =>
        simp only [ht, Res.pure_eq, Res.ok.injEq] at h2
        subst h2
        refine ⟨(hi.mem name).mpr (by rw [hv]; rfl), hn, by simp, ?_, hvi.begin_lt, ?_⟩
        · simp only [List.length_map, e1]; exact hvi.rank
        · intro n hm
          simp only [List.mem_map] at hm
          obtain ⟨x, hx, rfl⟩ := hm
          exact e2 x hx

example : (openCdf 100 (fileInt 2)).isOk = true := by decide +kernel

/-! ### C15 -/

/-- **C15** (partial). Opening does not panic on any byte string that does not start with a CDF
magic and a known version - it is an error - nor on any prefix of a file that opens.

What is missing, and false of the code: arbitrary corruption of the header (`C15_negation`). -/
theorem C15_no_panic_partial (ma : Nat) (file : Bytes) :
    ((¬ ∃ v : UInt8, (v = 1 ∨ v = 2 ∨ v = 5) ∧ file.take 4 = ascii "CDF" ++ [v]) →
      (openCdf ma file).isErr = true) ∧
    ∀ h, openCdf ma file = .ok h → ∀ q, q <+: file → openCdf ma q ≠ .panic := by
  constructor
  · intro hm
    unfold openCdf readHeader
    rw [P.bind_apply]
    unfold rdN
    by_cases hl : 4 ≤ file.length
    · rw [if_pos hl]
      simp only
      by_cases h3 : (file.take 4).take 3 = ascii "CDF"
      · rw [if_neg (by simpa using h3)]
        have hlen : (file.take 4).length = 4 := by rw [List.length_take]; omega
        generalize file.take 4 = b at *
        match b, hlen, h3, hm with
        | [b0, b1, b2, b3], _, h3, hm =>
          simp only [List.take_succ_cons, List.take_zero] at h3
          have e : ([b0, b1, b2, b3] : Bytes) = [b0, b1, b2] ++ [b3] := rfl
          rw [e, h3] at hm
          simp only [List.getD_cons_succ, List.getD_cons_zero]
          rw [if_neg]
          · rfl
          · intro hv
            apply hm
            refine ⟨b3, ?_, rfl⟩
            rcases hv with hv | hv | hv
            · left; exact UInt8.toNat.inj hv
            · right; left; exact UInt8.toNat.inj hv
            · right; right; exact UInt8.toNat.inj hv
      · rw [if_pos (by simpa using h3)]
        rfl
    · rw [if_neg hl]
      rfl
  · intro h ho q hq
    obtain ⟨pre, rest, h1, h2, h3⟩ := C17_truncated ho
    by_cases hlen : q.length < pre.length
    · have hqp : q <+: pre :=
        List.prefix_of_prefix_length_le hq (by rw [h1]; exact List.prefix_append _ _) (by omega)
      rw [h3 q hqp (by intro e; subst e; omega)]
      simp
    · have hpq : pre <+: q :=
        List.prefix_of_prefix_length_le (by rw [h1]; exact List.prefix_append _ _) hq (by omega)
      obtain ⟨t, rfl⟩ := hpq
      rw [h2 t]
      simp

/-- The example file with its dimension id, or the length of a name, replaced. -/
def badFile (nameLen dimid : Nat) : Bytes :=
  ascii "CDF" ++ [1] ++ beEnc 4 2 ++
  beEnc 4 10 ++ beEnc 4 1 ++ beEnc 4 1 ++ ascii "t" ++ [0, 0, 0] ++ beEnc 4 2 ++
  beEnc 4 0 ++ beEnc 4 0 ++
  beEnc 4 11 ++ beEnc 4 1 ++ beEnc 4 nameLen ++ ascii "v" ++ [0, 0, 0] ++ beEnc 4 1 ++
    beEnc 4 dimid ++ beEnc 4 0 ++ beEnc 4 0 ++ beEnc 4 4 ++ beEnc 4 4 ++ beEnc 4 80 ++
  beEnc 4 10 ++ beEnc 4 20

/-- Whether an outcome is a panic. -/
def isPanic {α : Type} : Res α → Bool
  | .panic => true
  | _ => false

theorem eq_panic {α : Type} {r : Res α} (h : isPanic r = true) : r = .panic := by
  cases r <;> simp_all [isPanic]

/-- **C15, negation.** A file of 88 bytes takes the process down, with 2^40 bytes of memory: with a
dimension id that does not exist (index out of range), with a name length of `0xffffffff` (wraps to
0 when rounded, then index out of range), or of `0x80000000` (allocation of nearly 2^64 bytes). -/
theorem C15_negation :
    (badFile 1 7).length = 88 ∧ openCdf (2 ^ 40) (badFile 1 7) = .panic ∧
    (badFile 0xffffffff 0).length = 88 ∧ openCdf (2 ^ 40) (badFile 0xffffffff 0) = .panic ∧
    (badFile 0x80000000 0).length = 88 ∧ openCdf (2 ^ 40) (badFile 0x80000000 0) = .panic ∧
    (openCdf (2 ^ 40) (badFile 1 0)).isOk = true :=
  ⟨by decide, eq_panic (by decide +kernel), by decide, eq_panic (by decide +kernel), by decide,
    eq_panic (by decide +kernel), by decide +kernel⟩

end Verif.Cdf
