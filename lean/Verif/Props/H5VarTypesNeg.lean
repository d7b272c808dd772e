import Verif.Props.H5VarTypes
import Verif.Props.H5TypedNeg
/-!
C68: what is missing, in files that `Close` writes.
-/
namespace Verif.H5

/-- A compound with one member, whose name looks like the end of one member and the beginning of another. -/
def ntOne : TVal := .compound [ascii "a;\n\tint b"] [.num .i32 1]

/-- A compound with two members. -/
def ntTwo : TVal := .compound [ascii "a", ascii "b"] [.num .i32 1, .num .i32 2]

def ntCalls : List HCall :=
  [.addVar [] (ascii "x") (.user ntOne) [] none, .addVar [] (ascii "g") (.user ntTwo) [] none]

def ntRoot : HGroup :=
  .mk ⟨ascii "/", [⟨ascii "x", .user ntOne, [], none, false⟩, ⟨ascii "g", .user ntTwo, [], none, false⟩], some []⟩ []

theorem nt_run : runCalls fiU ntCalls = ntRoot := by
  obtain ⟨hx, hg, hs, hh, hm, h0, -⟩ := fi_valid
  simp only [runCalls, ntCalls, List.foldl_cons, List.foldl_nil]
  rw [fi_add _ _ _ _ _ _ _ hx h0 rfl rfl, fi_add _ _ _ _ _ _ _ hg h0 rfl rfl]
  rfl

/-- `Type()` of a variable of the root group of a file that has just been opened. -/
def ntType (o : Obj) (n : Bytes) : Option Bytes :=
  match (rootGroup o).varType (fun _ ts => ts) .cdl [] n with
  | .ok b => some b
  | _ => none

def ntText : Bytes := ascii "compound {\n\tint a;\n\tint b;\n}"

def ntCase : Bool :=
  match closeFile false (fun _ vs => vs) ntRoot with
  | .ok file =>
    match openN 10 file with
    | .ok o => decide (ntType o (ascii "x") = some ntText) && decide (ntType o (ascii "g") = some ntText)
    | _ => false
  | _ => false

theorem ntType_ok {o : Obj} {n b : Bytes} (h : ntType o n = some b) :
    (rootGroup o).varType (fun _ ts => ts) .cdl [] n = .ok b := by
  unfold ntType at h
  split at h
  · rename_i b' e
    cases h
    exact e
  · cases h

/-- C68 fails for members whose names netCDF-4 does not allow: `AddVar` accepts them, and `Type()` says the same
of a variable with one member as of another with two. -/
theorem C68_negation_names : ∃ (u : UniTables) (cs : List HCall) (ord : Order) (file : Bytes) (o : Obj), OrderOK ord ∧
    HCall.addVar [] (ascii "x") (.user (.compound [ascii "a;\n\tint b"] [.num .i32 1])) [] none ∈ cs ∧
    HCall.addVar [] (ascii "g") (.user (.compound [ascii "a", ascii "b"] [.num .i32 1, .num .i32 2])) [] none ∈ cs ∧
    closeFile false ord (runCalls u cs) = .ok file ∧ OpensTo file o ∧
    (rootGroup o).varType (fun _ ts => ts) .cdl [] (ascii "x") = .ok (ascii "compound {\n\tint a;\n\tint b;\n}") ∧
    (rootGroup o).varType (fun _ ts => ts) .cdl [] (ascii "g") = .ok (ascii "compound {\n\tint a;\n\tint b;\n}") := by
  have h : ntCase = true := by decide +kernel
  unfold ntCase at h
  split at h
  · split at h
    · rename_i file hc _ o ho
      simp only [Bool.and_eq_true, decide_eq_true_eq] at h
      exact ⟨fiU, ntCalls, fun _ vs => vs, file, o, fun _ _ => .rfl, by simp [ntCalls, ntOne], by simp [ntCalls, ntTwo],
        by rw [nt_run]; exact hc, ⟨10, ho⟩, ntType_ok h.1, ntType_ok h.2⟩
    · cases h
  · cases h

end Verif.H5
