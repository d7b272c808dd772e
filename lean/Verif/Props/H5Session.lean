import Verif.Lemmas.H5Session
import Verif.Model.CdfClose
/-!
C43: groups and variables that are added again. C45: closing a writer twice.
-/
namespace Verif.H5

/-- C43. After any history of calls no group has two variables or two subgroups of one name. -/
theorem C43_unique_names (u : UniTables) (cs : List HCall) (p : List Bytes) (g : HGroup)
    (h : (runCalls u cs).at? p = some g) :
    (g.info.vars.map (·.name)).Nodup ∧ (g.subs.map HGroup.name).Nodup := by
  have hu := (uniq_runCalls u cs).at h
  cases hu with
  | mk i subs h1 h2 h3 => exact ⟨h1, h2⟩

/-- C43. `CreateGroup` of a group that exists, after any history, leaves everything as it is: the
group that is returned is the one that was there, with its contents. -/
theorem C43_create_existing (u : UniTables) (cs : List HCall) (p : List Bytes) (n : Bytes)
    (g root' : HGroup) (hg : (runCalls u cs).at? (p ++ [n]) = some g)
    (h : createGroupH u (runCalls u cs) p n = .ok root') : root' = runCalls u cs := by
  rw [createGroupH_ok h]
  rw [at_append] at hg
  cases hp : (runCalls u cs).at? p with
  | none => simp [hp] at hg
  | some gp =>
    simp only [hp, Option.bind_some, at_one] at hg
    refine modify_id _ p _ gp (uniq_runCalls u cs) hp ?_
    unfold withGroup
    rw [if_pos]
    exact List.any_eq_true.2 ⟨g, List.mem_of_find?_eq_some hg, by
      have := List.find?_some hg
      simpa using this⟩

/-- C43. `CreateGroup` of a new group makes an empty group and leaves all others as they are. -/
theorem C43_create_new (u : UniTables) (cs : List HCall) (p : List Bytes) (n : Bytes)
    (gp root' : HGroup) (hp : (runCalls u cs).at? p = some gp)
    (hn : (runCalls u cs).at? (p ++ [n]) = none)
    (h : createGroupH u (runCalls u cs) p n = .ok root') :
    root'.at? (p ++ [n]) = some (.mk { name := n } []) ∧
      ∀ q ≠ p ++ [n], (root'.at? q).map HGroup.info = ((runCalls u cs).at? q).map HGroup.info := by
  rw [createGroupH_ok h]
  refine ⟨?_, at_new n p _ gp hp hn⟩
  rw [at_append, at_modify _ (withGroup_name n), hp]
  simp only [at_append, hp, Option.bind_some, at_one] at hn
  simp only [Option.map_some, Option.bind_some, at_one]
  have hany : (gp.subs.any fun x => x.name == n) = false := by
    rw [List.find?_eq_none] at hn
    simpa using hn
  have e : withGroup n gp = .mk gp.info (gp.subs ++ [.mk { name := n } []]) := by
    simp [withGroup, hany]
  rw [e]
  show (gp.subs ++ [HGroup.mk { name := n } []]).find? (fun x => x.name == n) = _
  rw [List.find?_append, hn]
  simp [HGroup.name, HGroup.info]

/-- C43. `AddVar`, after any history: the group then has exactly one variable of that name, the one
just added; its other variables, its subgroups, its attributes, and all other groups are as
before. -/
theorem C43_add_var (u : UniTables) (cs : List HCall) (p : List Bytes) (name : Bytes) (val : GoVal)
    (dims : List Bytes) (attrs : Attrs) (g root' : HGroup)
    (hg : (runCalls u cs).at? p = some g)
    (h : addVarH u (runCalls u cs) p name val dims attrs = .ok root') :
    ∃ g' as, root'.at? p = some g' ∧ attrPairs attrs = .ok as ∧
      g'.info.vars.filter (·.name == name) = [⟨name, val, dims, as, false⟩] ∧
      (∀ n ≠ name, root'.var? p n = (runCalls u cs).var? p n) ∧
      g'.subs = g.subs ∧ g'.info.attrs = g.info.attrs ∧
      ∀ q ≠ p, (root'.at? q).map HGroup.info = ((runCalls u cs).at? q).map HGroup.info := by
  have hu' := (uniq_runCalls u cs).addVar h
  obtain ⟨as, has, rfl⟩ := addVarH_ok h
  have hat := at_modify (fun g => HGroup.mk
    { g.info with vars := setVar g.info.vars ⟨name, val, dims, as, false⟩ } g.subs)
    (fun g => by cases g; rfl) p (runCalls u cs)
  rw [hg, Option.map_some] at hat
  refine ⟨_, as, hat, has, ?_, ?_, rfl, rfl, ?_⟩
  · have hnd := hu'.at hat
    cases hnd with
    | mk i subs h1 h2 h3 =>
      exact filter_nodup h1 (by rw [setVar_find]; simp)
  · intro n hn
    unfold HGroup.var?
    rw [hat, hg]
    simp only [Option.bind_some, HGroup.info]
    rw [setVar_find]
    simp [hn]
  · intro q hq
    exact at_modify_ne (fun g => HGroup.mk
      { g.info with vars := setVar g.info.vars ⟨name, val, dims, as, false⟩ } g.subs)
      (fun g => by cases g; rfl) (fun g => rfl) p q hq _

/-- ASCII only. -/
private def exU : UniTables := ⟨fun _ => false, fun _ => false, fun _ => false, fun _ => false⟩

private def exCalls : List HCall :=
  [.createGroup [] (ascii "g"), .addVar [ascii "g"] (ascii "v") (.num .i32 1) [] none,
    .addVar [ascii "g"] (ascii "w") (.num .i32 2) [] none, .createGroup [] (ascii "g"),
    .addVar [ascii "g"] (ascii "v") (.str (ascii "x")) [] none]

-- a group created twice and a variable added twice, with another type
example : ((runCalls exU exCalls).at? [ascii "g"]).map
      (fun g => g.info.vars.map fun v => (v.name, v.val)) =
    some [(ascii "v", .str (ascii "x")), (ascii "w", .num .i32 2)] := by decide +kernel
example : isValidName exU (ascii "g") = true ∧ isValidName exU (ascii "h") = true ∧
    ((runCalls exU exCalls).at? [ascii "g"]).isSome = true ∧
    ((runCalls exU exCalls).at? ([ascii "g"] ++ [ascii "h"])).isNone = true := by decide +kernel

/-! ### C45 -/

/-- C45. A second `Close` on an HDF5 writer, in any state and whatever the first one did, writes
nothing and changes nothing. -/
theorem C45_hdf5_second_close (be be' : Bool) (ord ord' : Order) (s : HState) :
    ((s.close be ord).1.close be' ord') = ((s.close be ord).1, .ok none) := by
  unfold HState.close
  split <;> simp_all

/-- C45. The first `Close` writes the file exactly when it reports success. -/
theorem C45_hdf5_first_close (be : Bool) (ord : Order) (s : HState) (h : s.closed = false)
    (out : Option Bytes) (hc : (s.close be ord).2 = .ok out) :
    ∃ file, out = some file ∧ closeFile be ord s.root = .ok file := by
  simp only [HState.close, h, Bool.false_eq_true, if_false] at hc
  cases hf : closeFile be ord s.root with
  | ok file => simp only [hf, Res.map, Res.ok.injEq] at hc; exact ⟨file, hc.symm, rfl⟩
  | err e => simp [hf, Res.map] at hc
  | panic => simp [hf, Res.map] at hc

/-- A `[][]string` whose rows have different lengths. -/
private def exUneven : GoVal :=
  .slice (.slice .str) [.slice .str [.str (ascii "a")], .slice .str []]

private def exBad : HState :=
  { root := runCalls exU [.addAttributes [] (some (OMap.empty.add (ascii "a") exUneven))] }

/-- C45, negation: a first `Close` that fails, so that nothing is in the file, and a second one
that reports success. The attributes of the writer were accepted by `AddAttributes`. -/
theorem C45_negation_hdf5_failed_close : ∃ (s : HState) (e : Err), s.closed = false ∧
    (∃ cs, s.root = runCalls exU cs) ∧ ∀ ord : Order, (∀ n vs, (ord n vs).Perm vs) →
    (s.close false ord).2 = .err e ∧ ((s.close false ord).1.close false ord).2 = .ok none := by
  refine ⟨exBad, .other, rfl, ⟨_, rfl⟩, fun ord hord => ?_⟩
  have key : closeFile false ord exBad.root = .err .other := by
    rw [closeFile_congr (ord' := fun _ vs => vs)]
    · decide +kernel
    · intro r hr n
      have : (visits [] r).length = 1 := by
        have h2 : (match addMetadata exBad.root with
          | .ok r => (visits [] r).length == 1
          | _ => true) = true := by decide +kernel
        rw [hr] at h2
        simpa using h2
      obtain ⟨x, hx⟩ := List.length_eq_one_iff.1 this
      rw [hx]
      have := hord n (visits [] r)
      rw [hx] at this
      exact List.perm_singleton.1 this
  have hc : exBad.closed = false := rfl
  constructor
  · simp [HState.close, hc, key, Res.map]
  · rw [C45_hdf5_second_close]

end Verif.H5

namespace Verif.Cdf

/-- C45. A `Close` of a CDF writer that reports success has written the file and closed it. A second
one reports an error and does not touch the file. -/
theorem C45_cdf_second_close (s : CState) (hs : s.closed = false) (h : s.close.2 = .ok ()) :
    s.w.writeAll = .ok s.close.1.disk ∧ s.close.1.closed = true ∧
      s.close.1.close.1 = s.close.1 ∧ s.close.1.close.2 ≠ .ok () := by
  unfold CState.close at h
  cases hw : s.w.writeAll with
  | panic => simp [hw] at h
  | err e => simp [hw] at h
  | ok out =>
    have e : s.close = ({ w := { s.w with version := (checkV5Attributes s.w.version s.w.globalAttrs).1 }
                          disk := out
                          closed := true }, .ok ()) := by
      unfold CState.close
      simp [hw, hs]
    rw [e]
    refine ⟨rfl, rfl, ?_⟩
    unfold CState.close
    simp only
    split
    · exact ⟨rfl, by simp⟩
    · exact ⟨rfl, by simp⟩
    · exact ⟨rfl, by simp⟩

end Verif.Cdf
