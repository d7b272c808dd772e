import Verif.Props.Formats
import Verif.Props.H5Slices
import Verif.Props.H5NamesEx
/-!
C38, C69: files that `Close` writes and that say something else when they are read.
-/
namespace Verif.H5
open Verif.Cdf (Call Session Fits)

/-- A string with a NUL byte, an empty array with two dimensions, an empty array of sequences, a
number with an attribute `CLASS`, one with an attribute that is an empty array with two dimensions. -/
def ngCalls : List HCall :=
  [.addVar [] (ascii "s") (.str [97, 0, 98]) [] none,
   .addVar [] (ascii "e") (.slice (.slice (.num .i8)) []) [ascii "y", ascii "x"] none,
   .addVar [] (ascii "q") (.slice (.slice (.num .i8)) []) [ascii "y"] none,
   .addVar [] (ascii "c") (.num .i8 1) [] (fiAttrs "CLASS" (.str (ascii "a"))),
   .addVar [] (ascii "m") (.num .i8 1) [] (fiAttrs "a" (.slice (.slice (.num .i8)) []))]

def ngRoot : HGroup :=
  .mk ⟨ascii "/", [⟨ascii "s", .str [97, 0, 98], [], none, false⟩,
    ⟨ascii "e", .slice (.slice (.num .i8)) [], [ascii "y", ascii "x"], none, false⟩,
    ⟨ascii "q", .slice (.slice (.num .i8)) [], [ascii "y"], none, false⟩,
    ⟨ascii "c", .num .i8 1, [], some [(ascii "CLASS", .str (ascii "a"))], false⟩,
    ⟨ascii "m", .num .i8 1, [], some [(ascii "a", .slice (.slice (.num .i8)) [])], false⟩], some []⟩ []

theorem ng_run : runCalls fiU ngCalls = ngRoot := by
  have h : ∀ n ∈ [ascii "s", ascii "e", ascii "q", ascii "c", ascii "m"], isValidName fiU n = true := by
    decide +kernel
  have h0 : Cdf.hasValidNames fiU none = true := rfl
  have h1 : Cdf.hasValidNames fiU (fiAttrs "CLASS" (.str (ascii "a"))) = true := by decide +kernel
  have h3 : Cdf.hasValidNames fiU (fiAttrs "a" (.slice (.slice (.num .i8)) [])) = true := by decide +kernel
  simp only [runCalls, ngCalls, List.foldl_cons, List.foldl_nil]
  rw [fi_add _ _ _ _ _ _ _ (h _ (by simp)) h0 rfl rfl, fi_add _ _ _ _ _ _ _ (h _ (by simp)) h0 rfl rfl,
    fi_add _ _ _ _ _ _ _ (h _ (by simp)) h0 rfl rfl, fi_add _ _ _ _ _ _ _ (h _ (by simp)) h1 rfl rfl,
    fi_add _ _ _ _ _ _ _ (h _ (by simp)) h3 rfl rfl]
  rfl

/-- What a variable of the root group reads as in a file that has just been opened. -/
def ngRead (file : Bytes) (o : Obj) (n : Bytes) : Res HVariable :=
  ((rootGroup o).getVariable ⟨fun b => .ok b, 0, file⟩ [] n).2

/-- The value that was read, or whether it was an error (`some none`: a panic). -/
def ngOut : Res HVariable → Option (Option GoVal)
  | .ok v => some (some v.values)
  | .err _ => none
  | .panic => some none

def ngCase : Bool :=
  match closeFile false (fun _ vs => vs) ngRoot with
  | .ok file =>
    match openN 10 file with
    | .ok o => decide (ngOut (ngRead file o (ascii "s")) = some (some (.str [97]))) &&
        decide (ngOut (ngRead file o (ascii "e")) = some (some (.slice (.num .i8) []))) &&
        decide (ngOut (ngRead file o (ascii "q")) = some none) &&
        decide (ngOut (ngRead file o (ascii "c")) = none) && decide (ascii "c" ∉ (rootGroup o).listVariables) &&
        decide (ngOut (ngRead file o (ascii "m")) = some none)
    | _ => false
  | _ => false

theorem ng_case : ∃ file o, closeFile false (fun _ vs => vs) (runCalls fiU ngCalls) = .ok file ∧ OpensTo file o ∧
    ngOut (ngRead file o (ascii "s")) = some (some (.str [97])) ∧
    ngOut (ngRead file o (ascii "e")) = some (some (.slice (.num .i8) [])) ∧
    ngOut (ngRead file o (ascii "q")) = some none ∧ ngOut (ngRead file o (ascii "c")) = none ∧
    ascii "c" ∉ (rootGroup o).listVariables ∧
    ngOut (ngRead file o (ascii "m")) = some none := by
  have h : ngCase = true := by decide +kernel
  rw [ng_run]
  unfold ngCase at h
  split at h
  · split at h
    · rename_i file hc _ o ho
      simp only [Bool.and_eq_true, decide_eq_true_eq] at h
      obtain ⟨⟨⟨⟨⟨h1, h2⟩, h3⟩, h4⟩, h5⟩, h7⟩ := h
      exact ⟨file, o, hc, ⟨10, ho⟩, h1, h2, h3, h4, h5, h7⟩
    · cases h
  · cases h

theorem ng_ok {r : Res HVariable} {v : GoVal} (h : ngOut r = some (some v)) : ∃ x, r = .ok x ∧ x.values = v := by
  cases r with
  | ok x => exact ⟨x, rfl, by simpa [ngOut] using h⟩
  | err e => cases h
  | panic => cases h

theorem ng_panic {r : Res HVariable} (h : ngOut r = some none) : r = .panic := by
  cases r with
  | ok x => cases h
  | err e => cases h
  | panic => rfl

theorem ng_err {r : Res HVariable} (h : ngOut r = none) : ∃ e, r = .err e := by
  cases r with
  | ok x => cases h
  | err e => exact ⟨e, rfl⟩
  | panic => cases h

/-- C38 fails for strings with a NUL byte: they end there. -/
theorem C38_negation_nul : ∃ (u : UniTables) (cs : List HCall) (ord : Order) (file : Bytes) (o : Obj) (x : HVariable),
    OrderOK ord ∧ HCall.addVar [] (ascii "s") (.str [97, 0, 98]) [] none ∈ cs ∧
      closeFile false ord (runCalls u cs) = .ok file ∧ OpensTo file o ∧
      ((rootGroup o).getVariable ⟨fun b => .ok b, 0, file⟩ [] (ascii "s")).2 = .ok x ∧ x.values = .str [97] := by
  obtain ⟨file, o, hc, ho, h1, -⟩ := ng_case
  obtain ⟨x, hx, hv⟩ := ng_ok h1
  exact ⟨fiU, ngCalls, _, file, o, x, fun _ _ => .rfl, by simp [ngCalls], hc, ho, hx, hv⟩

/-- C38 fails for empty arrays with several dimensions: they come back with one. -/
theorem C38_negation_empty : ∃ (u : UniTables) (cs : List HCall) (ord : Order) (file : Bytes) (o : Obj) (x : HVariable),
    OrderOK ord ∧ HCall.addVar [] (ascii "e") (.slice (.slice (.num .i8)) []) [ascii "y", ascii "x"] none ∈ cs ∧
      closeFile false ord (runCalls u cs) = .ok file ∧ OpensTo file o ∧
      ((rootGroup o).getVariable ⟨fun b => .ok b, 0, file⟩ [] (ascii "e")).2 = .ok x ∧
      x.values = .slice (.num .i8) [] := by
  obtain ⟨file, o, hc, ho, -, h2, -⟩ := ng_case
  obtain ⟨x, hx, hv⟩ := ng_ok h2
  exact ⟨fiU, ngCalls, _, file, o, x, fun _ _ => .rfl, by simp [ngCalls], hc, ho, hx, hv⟩

/-- C38 fails for empty arrays of sequences, and for attributes that are empty arrays with several
dimensions: `GetVariable` panics. -/
theorem C38_negation_panic : ∃ (u : UniTables) (cs : List HCall) (ord : Order) (file : Bytes) (o : Obj),
    OrderOK ord ∧ HCall.addVar [] (ascii "q") (.slice (.slice (.num .i8)) []) [ascii "y"] none ∈ cs ∧
      HCall.addVar [] (ascii "m") (.num .i8 1) [] (fiAttrs "a" (.slice (.slice (.num .i8)) [])) ∈ cs ∧
      closeFile false ord (runCalls u cs) = .ok file ∧ OpensTo file o ∧
      ((rootGroup o).getVariable ⟨fun b => .ok b, 0, file⟩ [] (ascii "q")).2 = .panic ∧
      ((rootGroup o).getVariable ⟨fun b => .ok b, 0, file⟩ [] (ascii "m")).2 = .panic := by
  obtain ⟨file, o, hc, ho, -, -, h3, -, -, h7⟩ := ng_case
  exact ⟨fiU, ngCalls, _, file, o, fun _ _ => .rfl, by simp [ngCalls], by simp [ngCalls], hc, ho, ng_panic h3, ng_panic h7⟩

/-- C38 fails for variables with an attribute `CLASS`, which the writer accepts: such a variable is
not listed and not found. -/
theorem C38_negation_class : ∃ (u : UniTables) (cs : List HCall) (ord : Order) (file : Bytes) (o : Obj) (e : Err),
    OrderOK ord ∧ HCall.addVar [] (ascii "c") (.num .i8 1) [] (fiAttrs "CLASS" (.str (ascii "a"))) ∈ cs ∧
      closeFile false ord (runCalls u cs) = .ok file ∧ OpensTo file o ∧ ascii "c" ∉ (rootGroup o).listVariables ∧
      ((rootGroup o).getVariable ⟨fun b => .ok b, 0, file⟩ [] (ascii "c")).2 = .err e := by
  obtain ⟨file, o, hc, ho, -, -, -, h4, h5, -⟩ := ng_case
  obtain ⟨e, he⟩ := ng_err h4
  exact ⟨fiU, ngCalls, _, file, o, e, fun _ _ => .rfl, by simp [ngCalls], hc, ho, h5, he⟩

/-! ### The two formats -/

/-- A string with a NUL byte. -/
def dfCalls : List Call := [.addVar (ascii "s") ⟨.str [97, 0, 98], [], none⟩]

def dfRoot : HGroup := .mk ⟨ascii "/", [⟨ascii "s", .str [97, 0, 98], [], none, false⟩], some []⟩ []

def dfCase : Bool :=
  match closeFile false (fun _ vs => vs) dfRoot with
  | .ok file =>
    match openN 10 file with
    | .ok o => decide (ngOut (ngRead file o (ascii "s")) = some (some (.str [97])))
    | _ => false
  | _ => false

/-- C69 fails for strings with a NUL byte: the CDF file has all of it, the HDF5 file has what stands
before the byte. -/
theorem C69_negation_nul : ∃ (u : UniTables) (calls : List Call) (cw : Cdf.Writer) (ma : Nat) (cfile hfile : Bytes)
    (ord : Order) (hd : Cdf.Hdr) (o : Obj) (c : Cdf.Variable) (x : HVariable),
    Session u calls cw ∧ cw.writeAll = .ok cfile ∧ Fits ma cw cfile ∧ OrderOK ord ∧
      closeFile false ord (runCalls u (calls.map sameCall)) = .ok hfile ∧
      Cdf.openCdf ma cfile = .ok hd ∧ OpensTo hfile o ∧
      Cdf.getVariable ma hd cfile (ascii "s") = .ok c ∧ c.values = .str [97, 0, 98] ∧
      ((rootGroup o).getVariable ⟨fun b => .ok b, 0, hfile⟩ [] (ascii "s")).2 = .ok x ∧ x.values = .str [97] := by
  have hsup : Cdf.Supported false (.str [97, 0, 98]) [3] (.str [97, 0, 98]) := .string _ (by decide) (.inl (by decide))
  obtain ⟨cw, cfile, h1, h2, h3⟩ := Cdf.runWitness dfCalls (fun cw file =>
    decide (file.length < 2 ^ 31 ∧ file.length ≤ 10000 ∧ cw.dimNames.length ≤ 1024 ∧
      ∀ sv ∈ cw.vars, sv.dimLengths.length ≤ 1024)) (by decide +kernel)
  have h3 := of_decide_eq_true h3
  have hs : Session Cdf.u0 dfCalls cw := by
    refine ⟨h1, ?_, by decide, ?_⟩
    · intro c hc
      rw [List.mem_singleton.1 hc]
      exact ⟨⟨_, _, hsup⟩, by decide, by intro om ho; cases ho⟩
    · rintro ⟨k, hk, -⟩
      cases hk
  have hf : Fits 10000 cw cfile := ⟨Or.inl h3.1, h3.2.1, h3.2.2.1, h3.2.2.2⟩
  obtain ⟨hd, hopen, -, hv⟩ := Cdf.C01_variable_round_trip_partial _ dfCalls cw hs 10000 cfile h2 hf
  obtain ⟨dims, attrs, hg, -⟩ := hv (ascii "s") _ (List.mem_singleton.2 rfl) _ _ hsup
  have hrun : runCalls Cdf.u0 (dfCalls.map sameCall) = dfRoot := by
    have hn : isValidName Cdf.u0 (ascii "s") = true := by decide +kernel
    have h0 : Cdf.hasValidNames Cdf.u0 none = true := rfl
    simp only [runCalls, dfCalls, List.map_cons, List.map_nil, List.foldl_cons, List.foldl_nil, sameCall, HCall.run,
      addVarH, hn, h0]
    rfl
  have h : dfCase = true := by decide +kernel
  unfold dfCase at h
  split at h
  · split at h
    · rename_i file hc _ o ho
      obtain ⟨x, hx, hxv⟩ := ng_ok (of_decide_eq_true h)
      exact ⟨Cdf.u0, dfCalls, cw, 10000, cfile, file, _, hd, o, _, x, hs, h2, hf, fun _ _ => .rfl,
        by rw [hrun]; exact hc, hopen, ⟨10, ho⟩, hg, rfl, hx, hxv⟩
    · cases h
  · cases h

end Verif.H5
