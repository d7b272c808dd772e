import Verif.Props.H5OrderTyped
import Verif.Props.H5FileNeg
/-!
C61: files with user-defined types that `Close` writes and that say something else when they are
read.
-/
namespace Verif.H5

/-- Compounds whose members have different names. -/
def tnNames : TVal :=
  .slice .compound [.compound [ascii "p"] [.num .i8 1], .compound [ascii "q"] [.num .i8 2]]

/-- Opaque values of different sizes. -/
def tnSizes : TVal := .slice .opaque [.opaque [1, 2], .opaque [3]]

/-- A sequence of compounds with a string. -/
def tnStrings : TVal := .slice (.slice .compound) [.slice .compound [.compound [ascii "p"] [.str (ascii "hi")]]]

def tnCalls : List HCall :=
  [.addVar [] (ascii "x") (.num .i8 1) [] (fiAttrs "a" (.user (.opaque [1, 2, 3]))),
   .addVar [] (ascii "g") (.user tnNames) [ascii "y"] none,
   .addVar [] (ascii "s") (.user tnSizes) [ascii "y"] none,
   .addVar [] (ascii "h") (.user tnStrings) [ascii "z"] none]

def tnRoot : HGroup :=
  .mk ⟨ascii "/", [⟨ascii "x", .num .i8 1, [], some [(ascii "a", .user (.opaque [1, 2, 3]))], false⟩,
    ⟨ascii "g", .user tnNames, [ascii "y"], none, false⟩, ⟨ascii "s", .user tnSizes, [ascii "y"], none, false⟩,
    ⟨ascii "h", .user tnStrings, [ascii "z"], none, false⟩], some []⟩ []

theorem tn_run : runCalls fiU tnCalls = tnRoot := by
  obtain ⟨hx, hg, hs, hh, hm, h0, -⟩ := fi_valid
  have h4 : Cdf.hasValidNames fiU (fiAttrs "a" (.user (.opaque [1, 2, 3]))) = true := by decide +kernel
  simp only [runCalls, tnCalls, List.foldl_cons, List.foldl_nil]
  rw [fi_add _ _ _ _ _ _ _ hx h4 rfl rfl, fi_add _ _ _ _ _ _ _ hg h0 rfl rfl, fi_add _ _ _ _ _ _ _ hs h0 rfl rfl,
    fi_add _ _ _ _ _ _ _ hh h0 rfl rfl]
  rfl

/-- What a variable of the root group reads as in a file that has just been opened. -/
def tnRead (file : Bytes) (o : Obj) (n : Bytes) : Res TVariable :=
  ((rootGroup o).getVariableT ((rootGroup o).cast fun _ ts => ts) ⟨fun b => .ok b, 0, file⟩ [] n).2

/-- The value and the attributes, if it could be read. -/
def tnOut : Res TVariable → Option (TVal × GoMap TVal)
  | .ok v => some (v.values, v.attrs)
  | _ => none

def tnCase : Bool :=
  match closeFile false (fun _ vs => vs) tnRoot with
  | .ok file =>
    match openN 10 file with
    | .ok o => decide (tnOut (tnRead file o (ascii "x")) = some (.num .i8 1, [(ascii "a", .opaque [0, 0, 0])])) &&
        decide (tnOut (tnRead file o (ascii "g")) = some (.slice .compound [.compound [ascii "p"] [.num .i8 1],
          .compound [ascii "p"] [.num .i8 2]], [])) &&
        decide (tnOut (tnRead file o (ascii "s")) = some (.slice .opaque [.opaque [1, 2], .opaque [3, 0]], [])) &&
        decide (tnOut (tnRead file o (ascii "h")) = none)
    | _ => false
  | _ => false

theorem tn_case : ∃ file o, closeFile false (fun _ vs => vs) (runCalls fiU tnCalls) = .ok file ∧ OpensTo file o ∧
    tnOut (tnRead file o (ascii "x")) = some (.num .i8 1, [(ascii "a", .opaque [0, 0, 0])]) ∧
    tnOut (tnRead file o (ascii "g")) = some (.slice .compound [.compound [ascii "p"] [.num .i8 1],
      .compound [ascii "p"] [.num .i8 2]], []) ∧
    tnOut (tnRead file o (ascii "s")) = some (.slice .opaque [.opaque [1, 2], .opaque [3, 0]], []) ∧
    tnOut (tnRead file o (ascii "h")) = none := by
  have h : tnCase = true := by decide +kernel
  rw [tn_run]
  unfold tnCase at h
  split at h
  · split at h
    · rename_i file hc _ o ho
      simp only [Bool.and_eq_true, decide_eq_true_eq] at h
      exact ⟨file, o, hc, ⟨10, ho⟩, h.1.1.1, h.1.1.2, h.1.2, h.2⟩
    · cases h
  · cases h

theorem tn_ok {r : Res TVariable} {v : TVal × GoMap TVal} (h : tnOut r = some v) :
    ∃ x, r = .ok x ∧ x.values = v.1 ∧ x.attrs = v.2 := by
  cases r with
  | ok x =>
    cases h
    exact ⟨x, rfl, rfl, rfl⟩
  | err e => cases h
  | panic => cases h

/-- C61 fails for opaque attributes: zeros come back. -/
theorem C61_negation_opaque : ∃ (u : UniTables) (cs : List HCall) (ord : Order) (file : Bytes) (o : Obj)
    (x : TVariable), OrderOK ord ∧
      HCall.addVar [] (ascii "x") (.num .i8 1) [] (fiAttrs "a" (.user (.opaque [1, 2, 3]))) ∈ cs ∧
      closeFile false ord (runCalls u cs) = .ok file ∧ OpensTo file o ∧
      ((rootGroup o).getVariableT ((rootGroup o).cast fun _ ts => ts) ⟨fun b => .ok b, 0, file⟩ [] (ascii "x")).2 =
        .ok x ∧ x.attrs = [(ascii "a", .opaque [0, 0, 0])] := by
  obtain ⟨file, o, hc, ho, h1, -⟩ := tn_case
  obtain ⟨x, hx, -, ha⟩ := tn_ok h1
  exact ⟨fiU, tnCalls, _, file, o, x, fun _ _ => .rfl, by simp [tnCalls], hc, ho, hx, ha⟩

/-- C61 fails for compounds whose members have different names: `AddVar` accepts them, and all come
back with the names of the first. -/
theorem C61_negation_names : ∃ (u : UniTables) (cs : List HCall) (ord : Order) (file : Bytes) (o : Obj)
    (x : TVariable), OrderOK ord ∧ HCall.addVar [] (ascii "g") (.user tnNames) [ascii "y"] none ∈ cs ∧
      closeFile false ord (runCalls u cs) = .ok file ∧ OpensTo file o ∧
      ((rootGroup o).getVariableT ((rootGroup o).cast fun _ ts => ts) ⟨fun b => .ok b, 0, file⟩ [] (ascii "g")).2 =
        .ok x ∧
      x.values = .slice .compound [.compound [ascii "p"] [.num .i8 1], .compound [ascii "p"] [.num .i8 2]] := by
  obtain ⟨file, o, hc, ho, -, h2, -⟩ := tn_case
  obtain ⟨x, hx, hv, -⟩ := tn_ok h2
  exact ⟨fiU, tnCalls, _, file, o, x, fun _ _ => .rfl, by simp [tnCalls], hc, ho, hx, hv⟩

/-- C61 fails for opaque values of different sizes: `AddVar` accepts them, and shorter ones come back
with zeros at the end. -/
theorem C61_negation_sizes : ∃ (u : UniTables) (cs : List HCall) (ord : Order) (file : Bytes) (o : Obj)
    (x : TVariable), OrderOK ord ∧ HCall.addVar [] (ascii "s") (.user tnSizes) [ascii "y"] none ∈ cs ∧
      closeFile false ord (runCalls u cs) = .ok file ∧ OpensTo file o ∧
      ((rootGroup o).getVariableT ((rootGroup o).cast fun _ ts => ts) ⟨fun b => .ok b, 0, file⟩ [] (ascii "s")).2 =
        .ok x ∧ x.values = .slice .opaque [.opaque [1, 2], .opaque [3, 0]] := by
  obtain ⟨file, o, hc, ho, -, -, h3, -⟩ := tn_case
  obtain ⟨x, hx, hv, -⟩ := tn_ok h3
  exact ⟨fiU, tnCalls, _, file, o, x, fun _ _ => .rfl, by simp [tnCalls], hc, ho, hx, hv⟩

/-- C61 fails for sequences of compounds with strings: `Close` writes them, and they cannot be read. -/
theorem C61_negation_strings : ∃ (u : UniTables) (cs : List HCall) (ord : Order) (file : Bytes) (o : Obj),
    OrderOK ord ∧ HCall.addVar [] (ascii "h") (.user tnStrings) [ascii "z"] none ∈ cs ∧
      closeFile false ord (runCalls u cs) = .ok file ∧ OpensTo file o ∧
      ∀ x, ((rootGroup o).getVariableT ((rootGroup o).cast fun _ ts => ts) ⟨fun b => .ok b, 0, file⟩ [] (ascii "h")).2 ≠
        .ok x := by
  obtain ⟨file, o, hc, ho, -, -, -, h4⟩ := tn_case
  refine ⟨fiU, tnCalls, _, file, o, fun _ _ => .rfl, by simp [tnCalls], hc, ho, fun x hx => ?_⟩
  unfold tnRead at h4
  rw [hx] at h4
  cases h4

end Verif.H5
