import Verif.Lemmas.H5Close
import Verif.Spec.H5Sane

/-!
The writer only appends to its buffer, and sets the end of the file in the superblock last. This holds for
whatever is in the groups; a file that cannot be finished is not considered.
-/

namespace Verif.H5

open Verif.H5.Sane

theorem writePadded_grows (buf data : Bytes) : buf <+: writePadded buf data := by
  unfold writePadded
  rw [List.append_assoc]
  exact List.prefix_append _ _

theorem writeVar_prefix {env : Env} {path : List Bytes} {buf : Bytes} {v : HVar} {r : Bytes × Nat}
    (h : writeVar env path buf v = .ok r) : buf <+: r.1 := by
  unfold writeVar at h
  split at h
  · cases h
  · cases h
  · split at h
    · cases h
    · cases h
    · split at h
      · cases h
      · cases h
      · cases h
        exact (writePadded_grows _ _).trans (List.prefix_append _ _)

theorem writeScales_prefix {be : Bool} : ∀ {vs : List HVar} {x r : Bytes × GoMap Nat},
    writeScales be vs x = .ok r → x.1 <+: r.1
  | [], x, r, h => by cases h; exact List.prefix_refl _
  | v :: vs, (buf, da), r, h => by
    unfold writeScales at h
    split at h
    · split at h
      · cases h
      · cases h
      · rename_i b a hw
        exact (writeVar_prefix hw).trans (writeScales_prefix h)
    · exact writeScales_prefix (x := (buf, da)) h

theorem writeVars_prefix {env : Env} {path : List Bytes} : ∀ {vs : List HVar} {buf : Bytes}
    {r : Bytes × List (Bytes × Nat)}, writeVars env path buf vs = .ok r → buf <+: r.1
  | [], buf, r, h => by cases h; exact List.prefix_refl _
  | v :: vs, buf, r, h => by
    unfold writeVars at h
    split at h
    · split at h
      · cases h
      · cases h
      · rename_i hr
        cases h
        have := writeVars_prefix hr
        exact this
    · split at h
      · cases h
      · cases h
      · rename_i hw
        split at h
        · cases h
        · cases h
        · rename_i hr
          cases h
          have := writeVars_prefix hr
          exact (writeVar_prefix hw).trans this

mutual
theorem writeContents_prefix (env : Env) : ∀ (path : List Bytes) (g : HGroup) (buf : Bytes)
    (r : Bytes × List (Bytes × Nat)), writeContents env path buf g = .ok r → buf <+: r.1
  | path, .mk i subs, buf, r, h => by
    unfold writeContents at h
    split at h
    · cases h
    · cases h
    · rename_i hv
      split at h
      · cases h
      · cases h
      · rename_i hs
        cases h
        have := writeSubs_prefix env path subs _ _ hs
        exact (writeVars_prefix hv).trans this
theorem writeSubs_prefix (env : Env) : ∀ (path : List Bytes) (gs : List HGroup) (buf : Bytes)
    (r : Bytes × List (Bytes × Nat)), writeSubs env path buf gs = .ok r → buf <+: r.1
  | _, [], buf, r, h => by
    unfold writeSubs at h
    cases h
    exact List.prefix_refl _
  | path, g :: gs, buf, r, h => by
    unfold writeSubs at h
    split at h
    · cases h
    · cases h
    · rename_i hc
      split at h
      · cases h
      · cases h
      · split at h
        · cases h
        · cases h
        · rename_i hs
          cases h
          have := writeSubs_prefix env path gs _ _ hs
          exact ((writeContents_prefix env _ g _ _ hc).trans (List.prefix_append _ _)).trans this
end

theorem placeHeap_prefix (buf : Bytes) (h : Heap) : buf <+: (placeHeap buf h).1 := by
  unfold placeHeap
  split
  · exact List.prefix_refl _
  · rw [writeGlobalHeap_eq, List.append_assoc]
    exact List.prefix_append _ _

/-- Every file of the writer is a superblock with the length of the file and something behind it. -/
theorem closeFile_form {be : Bool} {ord : Order} {root : HGroup} {file : Bytes}
    (h : closeFile be ord root = .ok file) :
    ∃ body r, finalizeSuperblock (superblockV2 ++ body) r = .ok file := by
  unfold closeFile at h
  split at h
  · cases h
  · cases h
  · split at h
    · cases h
    · cases h
    · rename_i hs
      split at h
      · cases h
      · cases h
      · simp only at h
        split at h
        · cases h
        · cases h
        · rename_i hc
          split at h
          · cases h
          · cases h
          · obtain ⟨body, hb⟩ := (((writeScales_prefix hs).trans (placeHeap_prefix _ _)).trans
              (writeContents_prefix _ _ _ _ _ hc)).trans (List.prefix_append _ _)
            rw [← hb] at h
            exact ⟨_, _, h⟩

theorem finalizeSuperblock_end {body : Bytes} {r : Nat} {file : Bytes} (hl : file.length < 2 ^ 64)
    (h : finalizeSuperblock (superblockV2 ++ body) r = .ok file) : endOfFile file = file.length := by
  obtain ⟨sum, -, hf⟩ := finalize_eq body r
  rw [hf] at h
  cases h
  have hlen : (superHead (48 + body.length) r ++ leEnc 4 sum.toNat ++ body).length = 48 + body.length := by
    simp only [List.length_append, superHead_length, leEnc_length]
  rw [hlen] at hl ⊢
  have h8 : byteAt (superHead (48 + body.length) r ++ leEnc 4 sum.toNat ++ body) 8 = 2 := by
    simp [byteAt, superHead, magic]
  unfold endOfFile
  rw [h8]
  have e : superHead (48 + body.length) r ++ leEnc 4 sum.toNat ++ body =
      (magic ++ [2, 8, 8, 0] ++ leEnc 8 0 ++ leEnc 8 0xffffffffffffffff) ++
        (leEnc 8 (48 + body.length) ++ (leEnc 8 r ++ (leEnc 4 sum.toNat ++ body))) := by
    simp [superHead]
  rw [e, if_neg (by decide), if_neg (by decide),
    List.drop_left' (by simp [magic]), List.take_left' (by simp)]
  exact leDec_leEnc_of_lt (by omega)

end Verif.H5
