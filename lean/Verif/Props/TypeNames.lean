import Verif.Lemmas.TypeNames
import Verif.Lemmas.CdfType
import Verif.Props.CdfSlice
/-!
C23, C24: the names of the types of variables and attributes.
-/
namespace Verif

/-- C24: for an attribute that holds data of any nesting depth `GetGoType` is the Go notation of
the type of the value. -/
theorem C24_go_type (o : Bool → Bytes) (om : OMap GoVal) (key : Bytes) (v : GoVal)
    (hget : om.get key = some v) (hw : WellTyped v) (hd : IsData v.ty) :
    om.getGoType o key = some (goName v.ty) := by
  simp [OMap.getGoType, hget, pGoType_eq o v hw hd]

/-- C24: `GetGoType` tells types apart: two attributes have the same answer only if their values
have the same type. -/
theorem C24_go_type_exact (o : Bool → Bytes) (om om' : OMap GoVal) (key key' : Bytes) (v v' : GoVal)
    (hget : om.get key = some v) (hget' : om'.get key' = some v')
    (hw : WellTyped v) (hw' : WellTyped v') (hd : IsData v.ty) (hd' : IsData v'.ty) :
    om.getGoType o key = om'.getGoType o key' ↔ v.ty = v'.ty := by
  rw [C24_go_type o om key v hget hw hd, C24_go_type o om' key' v' hget' hw' hd']
  constructor
  · intro h
    exact goName_inj _ _ hd hd' (Option.some.inj h)
  · intro h
    rw [h]

/-- C24: for an attribute that holds a rectangular array of numbers or strings of any rank `GetType`
is the CDL notation of the element type and the lengths. -/
theorem C24_cdl_type (o : Bool → Bytes) (om : OMap GoVal) (key : Bytes) (v : GoVal)
    (base : GoTy) (hb : (∃ k, base = .num k) ∨ base = .str)
    (leaf : GoVal → Prop) (hleaf : ∀ v, leaf v → v.ty = base) (dims : List Nat)
    (hget : om.get key = some v) (hv : Rect base leaf dims v) :
    om.getType o key = some (cdlName base dims) := by
  simp [OMap.getType, hget, pType_eq o base hb leaf hleaf dims v hv, replace_name]

/-- C24: an attribute that is not there has no type. -/
theorem C24_absent (o : Bool → Bytes) (om : OMap GoVal) (key : Bytes) (h : om.get key = none) :
    om.getType o key = none ∧ om.getGoType o key = none := by
  simp [OMap.getType, OMap.getGoType, h]

/-- An attribute `a` of type `[][]int32` with two rows of three, `b` an empty `[][]float64`. -/
private def exMap : OMap GoVal :=
  let row : GoVal := .slice (.num .i32) [.num .i32 1, .num .i32 2, .num .i32 3]
  (OMap.empty.add [97] (.slice (.slice (.num .i32)) [row, row])).add [98]
    (.slice (.slice (.num .f64)) [])

example : exMap.getGoType (fun _ => []) [97] = some (ascii "[][]int32") := by decide
example : exMap.getType (fun _ => []) [97] = some (cdlName (.num .i32) [2, 3]) ∧
    cdlName (.num .i32) [2, 3] = ascii "int(2,3)" ∧
    exMap.getType (fun _ => []) [98] = some (cdlName (.num .f64) [0, 5]) ∧
    cdlName (.num .f64) [0, 5] = ascii "double(*,*)" := by decide +kernel
example : ∃ v, exMap.get [97] = some v ∧ WellTyped v ∧ IsData v.ty ∧
    NumArray .i32 [2, 3] v := by
  refine ⟨_, rfl, ?_, ?_, ?_⟩
  · simp [WellTyped, AllTyped, GoVal.ty]
  · trivial
  · refine ⟨_, rfl, rfl, fun x hx => ?_⟩
    simp at hx
    subst hx
    refine ⟨_, rfl, rfl, fun y hy => ?_⟩
    simp at hy
    rcases hy with h | h | h <;> subst h <;> exact ⟨_, rfl, by decide⟩

/-! ### CDF variables -/

namespace Cdf

/-- C23. Whatever `GetSlice` (and so `Values`) of a variable returns, `GoType()` is the Go name of
its base element type, `Type()` the CDL name, and there is one level of slices for every dimension.
A character array is a nest of strings with one level less, its CDL name is `char`.

The lengths restrict only character variables of rank three or more. What is missing, and false of
the code: such a variable with no elements comes as bytes (`C23_negation_empty_char`). -/
theorem C23_type_names_partial {ma : Nat} {h : Hdr} {file : Bytes} {name : Bytes} {g : Getter}
    {b e : Int} {v : GoVal} (hg : getVarCommon h name = .ok g)
    (hv : getSlice ma h file g b e = .ok v)
    (hc : g.ty = .char → 3 ≤ g.dimLengths.length →
      prod g.dimLengths < 2 ^ 63 ∧ 0 ≤ b ∧ b < e ∧ e ≤ g.length) :
    ∃ base, goType g.ty = goBase base ∧
      (g.ty ≠ .char → cdlType g.ty = cdlBase base ∧ v.ty = tyNest base g.dimLengths) ∧
      (g.ty = .char → base = .str ∧ cdlType g.ty = "char" ∧ v.ty = tyNest base g.dimLengths.tail) := by
  refine ⟨match g.ty.kind with | none => .str | some k => .num k, ?_, ?_⟩
  · cases g.ty <;> rfl
  have hty := getSlice_ty hg hv hc
  constructor
  · intro hn
    refine ⟨?_, ?_⟩
    · revert hn; cases g.ty <;> intro hn <;> first | rfl | exact absurd rfl hn
    · rw [hty, valTy_eq]
      revert hn; cases g.ty <;> intro hn <;> first | rfl | exact absurd rfl hn
  · intro hn
    refine ⟨by rw [hn]; rfl, by rw [hn]; rfl, ?_⟩
    rw [hty, valTy_eq, hn]
    rfl

-- a three-dimensional character variable
example : ∃ h g v, openCdf 100 (file3 2 2 2 2 (ascii "abcdefgh")) = .ok h ∧
    getVarCommon h (ascii "v") = .ok g ∧ g.ty = .char ∧ 3 ≤ g.dimLengths.length ∧
    prod g.dimLengths < 2 ^ 63 ∧ 1 < g.length ∧
    getSlice 100 h (file3 2 2 2 2 (ascii "abcdefgh")) g 0 1 = .ok v ∧
    v.ty = .slice (.slice .str) ∧ goType g.ty = "string" := by
  obtain ⟨h, g, h1, h2, h3⟩ := witness 100 (file3 2 2 2 2 (ascii "abcdefgh")) "v" (fun h g =>
    decide (g.ty = .char ∧ 3 ≤ g.dimLengths.length ∧
    prod g.dimLengths < 2 ^ 63 ∧ 1 < g.length ∧
    getSlice 100 h (file3 2 2 2 2 (ascii "abcdefgh")) g 0 1 =
      .ok (.slice (.slice .str) [.slice .str [.str (ascii "ab"), .str (ascii "cd")]])))
    (by decide +kernel)
  have h3 := of_decide_eq_true h3
  exact ⟨h, g, _, h1, h2, h3.1, h3.2.1, h3.2.2.1, h3.2.2.2.1, h3.2.2.2.2, rfl, by rw [h3.1]; rfl⟩

/-- C23, negation: a three-dimensional character variable with no rows has `GoType()` `string`, but
its values are a `[][][]uint8`. -/
theorem C23_negation_empty_char : ∃ file h g v, openCdf 100 file = .ok h ∧
    getVarCommon h (ascii "v") = .ok g ∧ values 100 h file g = .ok v ∧ goType g.ty = "string" ∧
    v.ty = .slice (.slice (.slice (.num .u8))) := by
  refine ⟨file3 2 0 2 2 [], ?_⟩
  obtain ⟨h, g, h1, h2, h3⟩ := witness 100 (file3 2 0 2 2 []) "v" (fun h g =>
    decide (values 100 h (file3 2 0 2 2 []) g = .ok (.slice (.slice (.slice (.num .u8))) []) ∧
      g.ty = .char)) (by decide +kernel)
  have h3 := of_decide_eq_true h3
  exact ⟨h, g, _, h1, h2, h3.1, by rw [h3.2]; rfl, rfl⟩

end Cdf

end Verif
