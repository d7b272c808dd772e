import Verif.Lemmas.H5Object
/-!
C37: the messages of an object header.
-/
namespace Verif.H5

/-- C37, for messages of at most 65535 bytes. Whatever their number and sizes: the writer produces a
header, of ten bytes, the messages, the padding and a checksum. Wherever it stands in a file and
whatever the state of the reader, reading it has the effect of the messages, in order, each on
exactly its own bytes; the padding has none. If a message is refused the reader returns its error. -/
theorem C37_messages_in_order_partial (ms : List Msg) (hm : ∀ m ∈ ms, m.Fits)
    (hsize : (msgBlock ms).length + 10 < 2 ^ 32) :
    ∃ hdr, objectHeader ms = .ok hdr ∧ hdr.length % 8 = 6 ∧
      (∀ m ∈ ms, m.enc.length = 4 + m.data.length) ∧
      ∀ (file : Bytes) (addr fuel : Nat) (st : St), At file addr hdr → file.length < 2 ^ 63 →
        0 < addr →
        walk file (fuel + 1) (.header addr) st =
          applyMsgs (walk file fuel) 2 ms
            { st with info := { st.info with addr := addr }, kids := [] } := by
  obtain ⟨sum, hsum, -⟩ := checksum_lookup3 (headerBody ms) (by rw [headerBody_length]; omega)
  refine ⟨headerBody ms ++ leEnc 4 sum.toNat, ?_, ?_, fun m _ => m.enc_length, ?_⟩
  · simp only [objectHeader, hsum, Res.bind_ok, Res.pure_eq]
  · have := msgBlock_length_mod ms
    rw [List.length_append, headerBody_length, leEnc_length]
    omega
  · intro file addr fuel st hat hl ha
    exact walk_header file _ ms addr fuel st hm (by omega)
      (by simp only [objectHeader, hsum, Res.bind_ok, Res.pure_eq]) hat hl ha

/-- Three messages that fit, of a variable with three int32 values, and what they do to an object. -/
def exVarMsgs : List Msg :=
  [⟨1, buildDataspace [3]⟩, ⟨3, (WTy.num .i32).bytes false⟩, ⟨8, buildLayout 48 12⟩]

example : (∀ m ∈ exVarMsgs, m.Fits) ∧ (msgBlock exVarMsgs).length = 64 := by
  refine ⟨?_, by decide +kernel⟩
  intro m h
  simp only [exVarMsgs, List.mem_cons, List.not_mem_nil, or_false] at h
  rcases h with h | h | h <;> subst h <;> exact ⟨by decide, by decide⟩

/-- The object of an outcome. -/
def shapeOf (r : Res St) : Option (Option (List Nat) × List Block × Bool) :=
  match r with
  | .ok st => some (st.info.dims, st.info.blocks, st.info.isGroup)
  | _ => none

example : shapeOf (applyMsgs (fun _ _ => .panic) 2 exVarMsgs {}) =
    some (some [3], [.at 48 12], false) := by decide +kernel

/-- C37 fails above 65535 bytes: the length is stored in two bytes. A dataspace message of 65536
zeros, which the reader refuses on its own, disappears: the header is read as if it were empty. -/
theorem C37_negation_long_message :
    ∃ m : Msg, m.ty < 256 ∧ m.data.length = 65536 ∧
      (∀ w st, applyMsgs w 2 [m] st = .err .dataspaceVersion) ∧
      ∃ hdr, objectHeader [m] = .ok hdr ∧
        ∀ (file : Bytes) (addr fuel : Nat) (st : St), At file addr hdr → file.length < 2 ^ 63 →
          0 < addr →
          walk file (fuel + 1) (.header addr) st =
            .ok { st with info := { st.info with addr := addr }, kids := [] } := by
  have hz : ∀ n, (List.replicate n (⟨0, []⟩ : Msg)).flatMap Msg.enc = List.replicate (4 * n) 0 := by
    intro n
    induction n with
    | zero => rfl
    | succ n ih =>
      rw [List.replicate_succ, List.flatMap_cons, ih, show 4 * (n + 1) = 4 + 4 * n by omega,
        ← List.replicate_append_replicate]
      rfl
  obtain ⟨N, hN⟩ : ∃ N, 4 * N = 65536 := ⟨16384, rfl⟩
  have henc : [(⟨1, List.replicate (4 * N) 0⟩ : Msg)].flatMap Msg.enc =
      ((⟨1, []⟩ : Msg) :: List.replicate N ⟨0, []⟩).flatMap Msg.enc := by
    rw [List.flatMap_cons, List.flatMap_cons, hz, List.flatMap_nil, List.append_nil]
    simp only [Msg.enc, List.length_replicate, List.length_nil, List.append_nil]
    rw [show leEnc 2 (4 * N) = leEnc 2 0 by rw [hN]; rfl]
  have hblock : msgBlock [⟨1, List.replicate (4 * N) 0⟩] =
      msgBlock ((⟨1, []⟩ : Msg) :: List.replicate N ⟨0, []⟩) := by
    simp only [msgBlock, henc]
  have hhdr : objectHeader [⟨1, List.replicate (4 * N) 0⟩] =
      objectHeader ((⟨1, []⟩ : Msg) :: List.replicate N ⟨0, []⟩) := by
    simp only [objectHeader, headerBody, hblock]
  have hnone : ∀ w n st, applyMsgs w 2 (List.replicate n ⟨0, []⟩) st = .ok st := by
    intro w n st
    induction n with
    | zero => rfl
    | succ n ih => rw [List.replicate_succ]; simpa [applyMsgs, applyMsg] using ih
  have hlen : (((⟨1, []⟩ : Msg) :: List.replicate N ⟨0, []⟩).flatMap Msg.enc).length = 4 + 4 * N := by
    rw [List.flatMap_cons, hz, List.length_append, Msg.enc_length, List.length_replicate]
    rfl
  obtain ⟨hdr, h1, -, -, h2⟩ := C37_messages_in_order_partial
    ((⟨1, []⟩ : Msg) :: List.replicate N ⟨0, []⟩) (by
      intro m h
      rcases List.mem_cons.mp h with h | h
      · subst h; exact ⟨by decide, by decide⟩
      · rw [List.eq_of_mem_replicate h]; exact ⟨by decide, by decide⟩)
    (by
      rw [msgBlock, List.length_append, hlen]
      obtain ⟨_, _, _, _, h, _⟩ := nilPad_eq (4 + 4 * N)
      omega)
  refine ⟨⟨1, List.replicate (4 * N) 0⟩, (by decide : 1 < 256), ?_, ?_, hdr, hhdr.trans h1, ?_⟩
  · simp only [List.length_replicate]; exact hN
  · intro w st
    obtain ⟨M, hM⟩ : ∃ M, 4 * N = 4 + M := ⟨4 * N - 4, by omega⟩
    rw [hM, ← List.replicate_append_replicate]
    rfl
  · intro file addr fuel st hat hl ha
    rw [h2 file addr fuel st hat hl ha]
    simp only [applyMsgs, applyMsg, ↓reduceIte, Res.bind_ok, hnone]

end Verif.H5
