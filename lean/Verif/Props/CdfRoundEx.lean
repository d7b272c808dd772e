import Verif.Props.CdfDims
/-!
C01–C06: a concrete session that meets the hypotheses, and sessions for which the code does not do
what the properties say.
-/
namespace Verif.Cdf

/-- Tables without letters or digits beyond ASCII. -/
def u0 : UniTables := ⟨fun _ => false, fun _ => false, fun _ => false, fun _ => false⟩

/-- An attribute map with the given entries. -/
def attrMap (kvs : List (Bytes × GoVal)) : Attrs :=
  some { keys := kvs.map (·.1), values := kvs, visible := kvs.map (·.1), hidden := [] }

theorem runWitness (calls : List Call) (p : Writer → Bytes → Bool)
    (hp : (match runAll u0 calls Writer.init with
      | some cw => match cw.writeAll with
        | .ok file => p cw file
        | _ => false
      | none => false) = true) :
    ∃ cw file, runAll u0 calls Writer.init = some cw ∧ cw.writeAll = .ok file ∧ p cw file = true := by
  split at hp
  · rename_i cw heq
    split at hp
    · rename_i file heq2
      exact ⟨cw, file, heq, heq2, hp⟩
    · cases hp
  · cases hp

/-! ### A session -/

/-- `[2][3]int32`. -/
def exArray : GoVal :=
  .slice (.slice (.num .i32)) [.slice (.num .i32) [.num .i32 1, .num .i32 2, .num .i32 3],
    .slice (.num .i32) [.num .i32 4, .num .i32 5, .num .i32 (2 ^ 32 - 1)]]
/-- `[]string`. -/
def exStrings : GoVal := .slice .str [.str (ascii "one"), .str (ascii "two2")]
/-- Attributes of a version 5 type and others. -/
def exAttrs : Attrs := attrMap [(ascii "units", .str (ascii "mm")),
  (ascii "range", .slice (.num .u16) [.num .u16 1, .num .u16 65535])]

/-- An array with attributes, strings, an unsigned scalar, global attributes. -/
def exCalls : List Call :=
  [.addVar (ascii "a") ⟨exArray, [ascii "y", ascii "x"], exAttrs⟩,
   .addVar (ascii "s") ⟨exStrings, [ascii "y"], none⟩,
   .addVar (ascii "n") ⟨.num .u64 7, [], none⟩,
   .addAttributes (attrMap [(ascii "title", .slice (.num .f64) [.num .f64 0])])]

theorem exArray_supported (b : Bool) : Supported b exArray [2, 3] exArray :=
  .array .i32 [2, 3] exArray (by decide) (by decide) (by
    refine ⟨_, rfl, rfl, ?_⟩
    intro x hx
    simp only [List.mem_cons, List.not_mem_nil, or_false] at hx
    rcases hx with rfl | rfl <;>
    · refine ⟨_, rfl, rfl, ?_⟩
      intro y hy
      simp only [List.mem_cons, List.not_mem_nil, or_false] at hy
      rcases hy with rfl | rfl | rfl <;> exact ⟨_, rfl, by decide⟩)

theorem exStrings_supported (b : Bool) : Supported b exStrings [2, 4]
    (.slice .str [.str (ascii "one" ++ [0]), .str (ascii "two2")]) :=
  .strings 4 [2] exStrings (by decide) (by decide) (by decide) (by
    refine ⟨_, rfl, rfl, ?_⟩
    intro x hx
    simp only [List.mem_cons, List.not_mem_nil, or_false] at hx
    rcases hx with rfl | rfl <;> exact ⟨_, rfl, by decide⟩)
    ⟨ascii "two2", by decide, by decide⟩

theorem exFine : ∀ c ∈ exCalls, FineCall c := by
  intro c hc
  simp only [exCalls, List.mem_cons, List.not_mem_nil, or_false] at hc
  rcases hc with rfl | rfl | rfl | rfl
  · refine ⟨⟨_, _, exArray_supported _⟩, by decide, ?_⟩
    intro om ho
    cases ho
    refine ⟨by decide, ?_⟩
    intro k hk
    simp only [OMap.visibleKeys, List.map_cons, List.map_nil, List.mem_cons, List.not_mem_nil,
      or_false] at hk
    rcases hk with rfl | rfl
    · exact ⟨_, rfl, trivial⟩
    · refine ⟨_, rfl, ?_⟩
      intro x hx
      simp only [List.mem_cons, List.not_mem_nil, or_false] at hx
      rcases hx with rfl | rfl <;> exact ⟨_, rfl, by decide⟩
  · exact ⟨⟨_, _, exStrings_supported _⟩, by decide, by intro om ho; cases ho⟩
  · exact ⟨⟨_, _, .scalar .u64 7 (by decide) (fun h => by cases h)⟩, by decide, by intro om ho; cases ho⟩
  · intro om ho
    cases ho
    refine ⟨by decide, ?_⟩
    intro k hk
    simp only [OMap.visibleKeys, List.map_cons, List.map_nil, List.mem_cons, List.not_mem_nil,
      or_false] at hk
    subst hk
    refine ⟨_, rfl, ?_⟩
    intro x hx
    simp only [List.mem_cons, List.not_mem_nil, or_false] at hx
    subst hx
    exact ⟨_, rfl, by decide⟩

/-- The hypotheses of C01–C05 can be met. -/
theorem exSession : ∃ cw file, Session u0 exCalls cw ∧ cw.writeAll = .ok file ∧
    Fits 10000 cw file := by
  obtain ⟨cw, file, h1, h2, h3⟩ := runWitness exCalls (fun cw file =>
    decide (file.length < 2 ^ 31 ∧ file.length ≤ 10000 ∧ cw.dimNames.length ≤ 1024 ∧
      ∀ sv ∈ cw.vars, sv.dimLengths.length ≤ 1024)) (by decide +kernel)
  have h3 := of_decide_eq_true h3
  refine ⟨cw, file, ⟨h1, exFine, by decide, ?_⟩, h2, ⟨Or.inl h3.1, h3.2.1, h3.2.2.1, h3.2.2.2⟩⟩
  intro _
  exact ⟨ascii "n", ⟨.num .u64 7, [], none⟩, by simp [exCalls], Or.inl ⟨.u64, rfl, by simp [V5Kind]⟩⟩

example : ∃ (cw : Writer) (file : Bytes) (hd : Hdr), cw.writeAll = .ok file ∧
    openCdf 10000 file = .ok hd ∧
    hd.listVariables = [ascii "a", ascii "s", ascii "n"] ∧
    ∃ dims attrs, getVariable 10000 hd file (ascii "a") = .ok ⟨exArray, dims, attrs⟩ := by
  obtain ⟨cw, file, hs, hw, hf⟩ := exSession
  obtain ⟨hd, h1, h2, h3⟩ := C01_variable_round_trip_partial u0 exCalls cw hs 10000 file hw hf
  obtain ⟨dims, attrs, h4, _⟩ := h3 (ascii "a") _ (by simp [exCalls]; left; rfl) _ _
    (exArray_supported _)
  exact ⟨cw, file, hd, hw, h1, h2, dims, attrs, h4⟩

/-- The hypotheses of `C05_mismatch_refused`: dimension "y" has length 2, a string of length 3 is
refused for it. -/
example : ∃ cw, runAll u0 exCalls Writer.init = some cw ∧
    ∃ e, (cw.addVar u0 (ascii "z") ⟨.str (ascii "abc"), [ascii "y"], none⟩).2 = .err e := by
  obtain ⟨cw, file, hs, _⟩ := exSession
  refine ⟨cw, hs.run, ?_⟩
  exact C05_mismatch_refused u0 exCalls cw hs.run (ascii "a") (ascii "z")
    ⟨exArray, [ascii "y", ascii "x"], exAttrs⟩ _ (by simp [exCalls]) [2, 3] [3] _ _
    (exArray_supported _) (.string (ascii "abc") (by decide) (by decide)) 0 0 (by decide)
    (by decide) (by decide) (by decide) rfl (by decide)

/-! ### C01: the code loses or spoils some values -/

/-- What `GetVariable` returns, as a value. -/
def gotValue (ma : Nat) (file name : Bytes) : Option GoVal :=
  match openCdf ma file with
  | .ok hd => match getVariable ma hd file name with
    | .ok v => some v.values
    | _ => none
  | _ => none

/-- **C01 (negation, duplicate names).** Two successful `AddVar` calls with one name, a successful
`Close`, and `Open` fails. -/
theorem C01_negation_duplicate_names : ∃ calls cw file,
    runAll u0 calls Writer.init = some cw ∧ cw.writeAll = .ok file ∧
    ∀ hd, openCdf 10000 file ≠ .ok hd := by
  obtain ⟨cw, file, h1, h2, h3⟩ := runWitness
    [.addVar (ascii "v") ⟨.num .i32 1, [], none⟩, .addVar (ascii "v") ⟨.num .i32 2, [], none⟩]
    (fun _ file => match openCdf 10000 file with | .ok _ => false | _ => true) (by decide +kernel)
  refine ⟨_, cw, file, h1, h2, ?_⟩
  intro hd ho
  rw [ho] at h3
  cases h3

/-- **C01 (negation, zero-length array).** An empty slice is accepted, and the variable after it is
read back with another value. -/
theorem C01_negation_zero_length : ∃ calls cw file,
    runAll u0 calls Writer.init = some cw ∧ cw.writeAll = .ok file ∧
    Call.addVar (ascii "w") ⟨.num .i32 5, [], none⟩ ∈ calls ∧
    gotValue 10000 file (ascii "w") = some (.num .i32 2147483649) := by
  obtain ⟨cw, file, h1, h2, h3⟩ := runWitness
    [.addVar (ascii "v") ⟨.slice (.num .i32) [], [ascii "d"], none⟩,
     .addVar (ascii "w") ⟨.num .i32 5, [], none⟩]
    (fun _ file => decide (gotValue 10000 file (ascii "w") = some (.num .i32 2147483649)))
    (by decide +kernel)
  exact ⟨_, cw, file, h1, h2, by simp, of_decide_eq_true h3⟩

/-- **C01 (negation, signalling NaN).** A float32 scalar with a signalling NaN comes back as another
bit pattern. -/
theorem C01_negation_signalling_nan : ∃ calls cw file,
    runAll u0 calls Writer.init = some cw ∧ cw.writeAll = .ok file ∧
    Call.addVar (ascii "v") ⟨.num .f32 0x7f800001, [], none⟩ ∈ calls ∧
    gotValue 10000 file (ascii "v") = some (.num .f32 0x7fc00001) := by
  obtain ⟨cw, file, h1, h2, h3⟩ := runWitness
    [.addVar (ascii "v") ⟨.num .f32 0x7f800001, [], none⟩]
    (fun _ file => decide (gotValue 10000 file (ascii "v") = some (.num .f32 0x7fc00001)))
    (by decide +kernel)
  exact ⟨_, cw, file, h1, h2, by simp, of_decide_eq_true h3⟩

/-- **C01 (negation, character).** A one-byte string that is not ASCII comes back as two bytes. -/
theorem C01_negation_char : ∃ calls cw file,
    runAll u0 calls Writer.init = some cw ∧ cw.writeAll = .ok file ∧
    Call.addVar (ascii "v") ⟨.str [0xe9], [], none⟩ ∈ calls ∧
    gotValue 10000 file (ascii "v") = some (.str [0xc3, 0xa9]) := by
  obtain ⟨cw, file, h1, h2, h3⟩ := runWitness
    [.addVar (ascii "v") ⟨.str [0xe9], [], none⟩]
    (fun _ file => decide (gotValue 10000 file (ascii "v") = some (.str [0xc3, 0xa9])))
    (by decide +kernel)
  exact ⟨_, cw, file, h1, h2, by simp, of_decide_eq_true h3⟩

/-- **C01 (negation, longest string not in the first row).** `[][]string{{"a"}, {"bc"}}` comes back
as `{{"a"}, {"b"}}`. -/
theorem C01_negation_string_rows : ∃ calls cw file,
    runAll u0 calls Writer.init = some cw ∧ cw.writeAll = .ok file ∧
    Call.addVar (ascii "v") ⟨.slice (.slice .str) [.slice .str [.str (ascii "a")],
      .slice .str [.str (ascii "bc")]], [], none⟩ ∈ calls ∧
    gotValue 10000 file (ascii "v") = some (.slice (.slice .str) [.slice .str [.str (ascii "a")],
      .slice .str [.str (ascii "b")]]) := by
  obtain ⟨cw, file, h1, h2, h3⟩ := runWitness
    [.addVar (ascii "v") ⟨.slice (.slice .str) [.slice .str [.str (ascii "a")],
      .slice .str [.str (ascii "bc")]], [], none⟩]
    (fun _ file => decide (gotValue 10000 file (ascii "v") = some (.slice (.slice .str)
      [.slice .str [.str (ascii "a")], .slice .str [.str (ascii "b")]]))) (by decide +kernel)
  exact ⟨_, cw, file, h1, h2, by simp, of_decide_eq_true h3⟩

/-- **C01 (negation, dimension name).** A dimension name with a NUL byte is accepted and cut. -/
theorem C01_negation_dim_name : ∃ calls cw file,
    runAll u0 calls Writer.init = some cw ∧ cw.writeAll = .ok file ∧
    Call.addVar (ascii "v") ⟨.str (ascii "xy"), [[97, 0, 98]], none⟩ ∈ calls ∧
    (match openCdf 10000 file with
      | .ok hd => match getVariable 10000 hd file (ascii "v") with
        | .ok v => v.dimensions
        | _ => []
      | _ => []) = [[97]] := by
  obtain ⟨cw, file, h1, h2, h3⟩ := runWitness
    [.addVar (ascii "v") ⟨.str (ascii "xy"), [[97, 0, 98]], none⟩]
    (fun _ file => decide ((match openCdf 10000 file with
      | .ok hd => match getVariable 10000 hd file (ascii "v") with
        | .ok v => v.dimensions
        | _ => []
      | _ => []) = [[97]])) (by decide +kernel)
  exact ⟨_, cw, file, h1, h2, by simp, of_decide_eq_true h3⟩

/-- The dimensions of a variable of a file and what `GetDimension` says about them. -/
def gotDims (ma : Nat) (file name : Bytes) : List (Bytes × Option Nat) :=
  match openCdf ma file with
  | .ok hd => match getVariable ma hd file name with
    | .ok v => v.dimensions.map fun d => (d, hd.getDimension d)
    | _ => []
  | _ => []

/-- **C05 (negation).** Names that differ behind a NUL byte are accepted as names of dimensions of different
lengths. In the file they are one name, and `GetDimension` has a length that is not that of the value. -/
theorem C05_negation : ∃ calls cw file,
    runAll u0 calls Writer.init = some cw ∧ cw.writeAll = .ok file ∧
    Call.addVar (ascii "v") ⟨.str (ascii "xy"), [[97, 0, 98]], none⟩ ∈ calls ∧
    Call.addVar (ascii "w") ⟨.str (ascii "xyz"), [[97, 0, 99]], none⟩ ∈ calls ∧
    gotDims 10000 file (ascii "v") = [([97], some 2)] ∧ gotDims 10000 file (ascii "w") = [([97], some 2)] := by
  obtain ⟨cw, file, h1, h2, h3⟩ := runWitness
    [.addVar (ascii "v") ⟨.str (ascii "xy"), [[97, 0, 98]], none⟩,
     .addVar (ascii "w") ⟨.str (ascii "xyz"), [[97, 0, 99]], none⟩]
    (fun _ file => decide (gotDims 10000 file (ascii "v") = [([97], some 2)] ∧
      gotDims 10000 file (ascii "w") = [([97], some 2)])) (by decide +kernel)
  exact ⟨_, cw, file, h1, h2, by simp, by simp, of_decide_eq_true h3⟩

/-! ### C02, C04: global attributes of version 5 types -/

/-- **C02 (negation).** Global attributes of a version 5 type, accepted and written in a file with
variables of older types only, make `Open` fail. -/
theorem C02_negation_v5_globals : ∃ calls cw file,
    runAll u0 calls Writer.init = some cw ∧ cw.writeAll = .ok file ∧
    ∀ hd, openCdf 10000 file ≠ .ok hd := by
  obtain ⟨cw, file, h1, h2, h3⟩ := runWitness
    [.addAttributes (attrMap [(ascii "a", .num .u8 1)])]
    (fun _ file => match openCdf 10000 file with | .ok _ => false | _ => true) (by decide +kernel)
  refine ⟨_, cw, file, h1, h2, ?_⟩
  intro hd ho
  rw [ho] at h3
  cases h3

/-- **C04 (negation).** A file with a global attribute of a version 5 type says version 2. -/
theorem C04_negation : ∃ calls cw file,
    runAll u0 calls Writer.init = some cw ∧ cw.writeAll = .ok file ∧
    AttrsNeedV5 (lastAttributes calls) ∧ file[3]? = some 2 := by
  obtain ⟨cw, file, h1, h2, h3⟩ := runWitness
    [.addAttributes (attrMap [(ascii "a", .num .u8 1)])]
    (fun _ file => decide (file[3]? = some 2)) (by decide +kernel)
  refine ⟨_, cw, file, h1, h2, ?_, of_decide_eq_true h3⟩
  exact ⟨ascii "a", by decide, .num .u8 1, rfl, .u8, rfl, by simp [V5Kind]⟩

/-! ### C03 -/

/-- **C03 (negation).** With an empty slice the areas recorded in the header go beyond the end of
the file: the last one ends 4 bytes after it. -/
theorem C03_negation_zero_length : ∃ calls cw file,
    runAll u0 calls Writer.init = some cw ∧ cw.writeAll = .ok file ∧
    ∃ hd, openCdf 10000 file = .ok hd ∧
      (areaOf hd (ascii "w")).1 + (areaOf hd (ascii "w")).2 = file.length + 4 := by
  obtain ⟨cw, file, h1, h2, h3⟩ := runWitness
    [.addVar (ascii "v") ⟨.slice (.num .i32) [], [ascii "d"], none⟩,
     .addVar (ascii "w") ⟨.num .i32 5, [], none⟩]
    (fun _ file => match openCdf 10000 file with
      | .ok hd => decide ((areaOf hd (ascii "w")).1 + (areaOf hd (ascii "w")).2 = file.length + 4)
      | _ => false)
    (by decide +kernel)
  refine ⟨_, cw, file, h1, h2, ?_⟩
  split at h3
  · rename_i hd ho
    exact ⟨hd, ho, of_decide_eq_true h3⟩
  · cases h3

/-! ### C06 -/

/-- **C06 (negation).** An `AddVar` that is refused because its second dimension name is in use with
another length leaves its first dimension behind: the file that `Close` writes is another one. -/
theorem C06_negation : ∃ calls cw name vr,
    runAll u0 calls Writer.init = some cw ∧
    (cw.addVar u0 name vr).2 = .err .dimensionSize ∧
    ∃ f1 f2, cw.writeAll = .ok f1 ∧ (cw.addVar u0 name vr).1.writeAll = .ok f2 ∧ f1 ≠ f2 := by
  let vr : Variable := ⟨.slice (.slice (.num .i8)) [.slice (.num .i8) [.num .i8 1]],
    [ascii "new", ascii "d"], none⟩
  obtain ⟨cw, file, h1, h2, h3⟩ := runWitness
    [.addVar (ascii "v") ⟨.slice (.num .i8) [.num .i8 1, .num .i8 2], [ascii "d"], none⟩]
    (fun cw file => match cw.addVar u0 (ascii "w") vr with
      | (cw', .err .dimensionSize) => match cw'.writeAll with
        | .ok f2 => decide (file ≠ f2)
        | _ => false
      | _ => false) (by decide +kernel)
  refine ⟨_, cw, ascii "w", vr, h1, ?_⟩
  split at h3
  · rename_i cw' ha
    split at h3
    · rename_i f2 hw
      refine ⟨by rw [ha], file, f2, h2, by rw [ha]; exact hw, of_decide_eq_true h3⟩
    · cases h3
  · cases h3

/-- The hypotheses of `C06_addVar_partial`: a variable without a name. -/
example : (Writer.init.addVar u0 [] ⟨.num .i8 1, [], none⟩).2 = .err .invalidName := by
  decide +kernel

end Verif.Cdf
