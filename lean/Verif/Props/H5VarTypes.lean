import Verif.Spec.H5VarTypes
import Verif.Props.H5Names
import Verif.Props.H5ReadTyped
/-!
C68: `Type()` and `GoType()` of the variables of a written file.
-/
namespace Verif.H5

/-! ### Types of values -/

theorem packed_members : ∀ (off : Nat) (names : List Bytes) (ts : List WTy), names.length = ts.length →
    (packed off names ts).map (·.1) = names ∧ (packed off names ts).all (fun m => m.2.2.getD [] = []) = true
  | _, [], [], _ => ⟨rfl, rfl⟩
  | off, n :: ns, t :: ts, h => by
    obtain ⟨h1, h2⟩ := packed_members (off + t.fieldSize) ns ts (by simpa using h)
    simp only [packed, List.map_cons, h1, List.all_cons, h2]
    simp
  | _, [], _ :: _, h => by simp at h
  | _, _ :: _, [], h => by simp at h

theorem intKind_size {k : Kind} (h : k.isFloat = false) : intKind k.size k.signed = some k := by
  cases k <;> first | rfl | cases h

mutual
theorem wty_ty : ∀ (last : Bool) (t : WTy), t.Readable last → t.dt.ty = some t.ty
  | _, .num k, _ => by cases k <;> rfl
  | _, .fixStr _, _ => by simp [WTy.dt, DT.ty, WTy.ty]
  | _, .vlenStr, _ => by simp [WTy.dt, DT.ty, WTy.ty]
  | last, .vlenSeq t, h => by
    rw [WTy.Readable] at h
    simp [WTy.dt, DT.ty, WTy.ty, wty_ty last t h]
  | _, .opaque _, _ => by simp [WTy.dt, DT.ty, WTy.ty]
  | last, .compound names ts, h => by
    rw [WTy.Readable] at h
    obtain ⟨h1, h2⟩ := packed_members 0 names ts h.1
    simp only [WTy.dt, DT.ty, h1, h2, wtys_ty last ts h.2.2.2.2.2.2, WTy.ty]
    rfl
  | _, .enum k names vals, h => by
    rw [WTy.Readable] at h
    simp [WTy.dt, DT.ty, WTy.ty, intKind_size h.1]
  | _, .ref, _ => by simp [WTy.dt, DT.ty, WTy.ty]
theorem wtys_ty : ∀ (last : Bool) (ts : List WTy), Readables last ts → tys (dts ts) = some (wtys ts)
  | _, [], _ => rfl
  | last, [t], h => by
    rw [Readables] at h
    simp [dts, tys, wtys, wty_ty last t h]
  | last, t :: t' :: ts, h => by
    rw [Readables] at h
    · have h2 := wtys_ty last (t' :: ts) h.2
      rw [dts, tys, wty_ty false t h.1, h2]
      rfl
    · simp
end

mutual
/-- Nothing that is written is an array type, which Go writes like an opaque type. -/
theorem not_vague : ∀ t : WTy, ¬ t.ty.Has (vague true)
  | .num _ => by simp [WTy.ty, Ty.Has, vague]
  | .fixStr _ => by simp [WTy.ty, Ty.Has, vague]
  | .vlenStr => by simp [WTy.ty, Ty.Has, vague]
  | .vlenSeq t => by simp [WTy.ty, Ty.Has, vague, not_vague t]
  | .opaque _ => by simp [WTy.ty, Ty.Has, vague]
  | .compound _ ts => by simp [WTy.ty, Ty.Has, vague, not_vagues ts]
  | .enum _ _ _ => by simp [WTy.ty, Ty.Has, vague]
  | .ref => by simp [WTy.ty, Ty.Has, vague]
theorem not_vagues : ∀ ts : List WTy, ¬ Ty.HasAny (vague true) (wtys ts)
  | [] => by simp [wtys, Ty.HasAny]
  | t :: ts => by simp [wtys, Ty.HasAny, not_vague t, not_vagues ts]
end

/-- The writer stores the type that the value has. -/
theorem hasTy_stored {n : Nat} {v : GoVal} {ty : Ty} (h : HasTy n v ty) : ∃ t : WTy, datatypeOf v n = .ok t ∧ t.ty = ty := by
  cases h with
  | num k dims v hv hs => exact ⟨.num k, datatypeOf_num hv, rfl⟩
  | text s => exact ⟨.fixStr (s.length + 1), rfl, rfl⟩
  | texts dims v hv hne hs => exact ⟨.vlenStr, datatypeOf_strs hv hne, rfl⟩
  | seq k dims v hv hs hp => exact ⟨.vlenSeq (.num k), datatypeOf_rows hv hp, rfl⟩
  | user w dims v hv => exact ⟨w, by rw [datatypeOf_user]; exact (var_user hv).1.2.1, rfl⟩

/-- Every variable that can be stored has a type. -/
theorem varAny_hasTy {n : Nat} {v : GoVal} (h : VarAny n v) : ∃ ty, HasTy n v ty := by
  cases h with
  | common _ _ h =>
    cases h with
    | plain _ _ h =>
      cases h with
      | num k dims v hv hs => exact ⟨_, .num k dims v hv hs⟩
      | str s => exact ⟨_, .text s⟩
    | strs dims v hv hne hs => exact ⟨_, .texts dims v hv hne hs⟩
    | rows k dims v hv hs hp => exact ⟨_, .seq k dims v hv hs hp⟩
  | user w dims v hv => exact ⟨_, .user w dims v hv⟩

/-! ### The property -/

/-- C68: for every sequence of calls on the writer that leads to a file whose parts can be stored
(`FileStored`): `Close` succeeds, the file can be opened, and whatever was read before, `Type()` and
`GoType()` of every variable are the type of the elements that were given, written out in CDL and in Go.
Missing: files outside `FileStored`, and user-defined types that have no members or whose members have
names that netCDF-4 does not allow. -/
theorem C68_written_types_partial (u : UniTables) (cs : List HCall) (ord : Order) (hord : OrderOK ord)
    (hstored : FileStored (runCalls u cs)) :
    ∃ file, closeFile false ord (runCalls u cs) = .ok file ∧ (file.length < 2 ^ 63 →
      ∃ o, OpensTo file o ∧
        ∀ (inflate : Bytes → Res Bytes) (fuel : Nat) (tord : List Nat → List NamedType → List NamedType),
          Iteration tord → ∀ (before : ReadCalls) (names : List Bytes)
          (path : Bytes), PathOf names path → path.head? = some 47 →
          ∀ g, (runCalls u cs).at? names = some g → ∃ G, (rootGroup o).getGroup path = .ok G ∧
            ∀ v ∈ g.info.vars, (∃ ty, HasTy v.dims.length v.val ty) ∧
              ∀ ty, HasTy v.dims.length v.val ty → ty.Ok → ∀ nt,
                G.varType tord nt (readAllT ⟨inflate, fuel, file⟩ o tord before) v.name =
                  .ok (ty.write nt v.name fun _ => none)) := by
  obtain ⟨file, hc, h⟩ := file_stored u cs ord hord hstored
  refine ⟨file, hc, fun hl => ?_⟩
  obtain ⟨env, root', ds, o, ho, hctx⟩ := h hl
  refine ⟨o, ho, fun inflate fuel tord htord before names path hp habs g hat => ?_⟩
  have c := hctx inflate fuel
  have hfresh := c.freshAllT htord before
  have hgrp := c.group names
  rw [hat] at hgrp
  obtain ⟨o', g', h1, h2, h3, h4⟩ := hgrp
  refine ⟨{ root := o, obj := o', name := slash :: dirs names }, ?_, fun v hv => ?_⟩
  · rw [C39_absolute (rootGroup o) path names hp habs, lookup]
    simp only [rootGroup, h1]
    rfl
  generalize hG : ({ root := o, obj := o', name := slash :: dirs names } : Group) = G
  have hobj : G.obj = o' := by rw [← hG]
  have hal := c.allowed.group.at hat
  refine ⟨varAny_hasTy (hal.inv.2.1 v hv).val, fun ty hty hok nt => ?_⟩
  have hnone : G.types = [] := types_none (G := G) (hobj ▸ h2)
  obtain ⟨k, w, hk, hw, hs, hva, hmem⟩ := (findVariable_ok (G := G) (hobj ▸ h2) h3 h4 hal).1 v hv
  have hko : k ∈ allObjs o := follow_mem names h1 (kid_mem_allObjs (hobj ▸ hmem) (self_mem_allObjs k))
  obtain ⟨t, e1, e2, e3⟩ := hva.obj.code
  obtain ⟨t', e4, rfl⟩ := hasTy_stored hty
  have hdims : w.dims = v.dims := by rcases hs with ⟨rfl, _, _⟩ | ⟨i, _, _, rfl, _⟩ <;> rfl
  rw [hs.val, hdims, e4] at e1
  cases e1
  have hcat : Catalogue G.types [] := by
    rw [hnone]
    exact ⟨rfl, List.nodup_nil, by simp, by simp⟩
  have hcall : outside [v.name] (nameIn []) = fun _ => none := by
    funext s
    simp [outside, nameIn]
  rw [Group.varType, hk]
  simp only [Group.describe, hfresh k hko, TSt.fresh, e2]
  have ht := wty_ty true t e3
  cases nt with
  | cdl =>
    rw [describe_ok htord hcat (bad := fun _ => False) (by simp) (apart_cdl hcat v.name) [v.name] ht ⟨hok, has_false _⟩, hcall]
  | go =>
    rw [describe_ok htord hcat (bad := vague true) (by simp) (apart_go hcat v.name true) [v.name] ht ⟨hok, not_vague t⟩, hcall]

theorem uf_ok : ufRecTy.ty.Ok := by
  simp only [ufRecTy, WTy.ty, wtys, Ty.Ok, Ty.OkAll, and_true, List.length_cons, List.length_nil, true_and]
  refine ⟨by simp, ?_⟩
  intro n hn
  simp only [List.mem_cons, List.not_mem_nil, or_false] at hn
  rcases hn with rfl | rfl <;> exact ⟨by decide, by decide⟩

-- a variable of compounds with a number and a string, and an enumeration
example : FileStored (runCalls fiU ufCalls) ∧ (runCalls fiU ufCalls).at? [ascii "g"] = some ufG ∧ ufM ∈ ufG.info.vars ∧
    HasTy 1 ufM.val ufRecTy.ty ∧ ufRecTy.ty.Ok ∧
    ufRecTy.ty.write .cdl (ascii "m") (fun _ => none) = ascii "compound {\n\tint x;\n\tstring s;\n}" ∧
    ufRecTy.ty.write .go (ascii "m") (fun _ => none) = ascii "struct {\n\tx int32\n\ts string\n}\n" ∧
    HasTy 0 ufX.val (.enum .i8 [ascii "a", ascii "b"] [1, 2]) :=
  ⟨uf_stored, by rw [uf_run]; rfl, by simp [ufG, HGroup.info], .user ufRecTy [2] _ uf_recs, uf_ok, by decide +kernel,
    by decide +kernel,
    .user (.enum .i8 [ascii "a", ascii "b"] [1, 2]) [] _ (.enum .i8 _ _ [] _ rfl (.num _ _ (by decide)) (by simp))⟩

end Verif.H5
