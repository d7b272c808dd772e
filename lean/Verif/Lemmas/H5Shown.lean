import Verif.Spec.H5Lift
import Verif.Spec.H5Typed
import Verif.Lemmas.CdfData
/-!
Arrays of elements that are shown are shown.
-/
namespace Verif.H5
open Verif.Cdf

theorem lift_tyNest (base : GoTy) (ds : List Nat) : GoTy.lift (tyNest base ds) = sliceTy (GoTy.lift base) ds := by
  induction ds with
  | nil => rfl
  | cons d ds ih => simp [tyNest, sliceTy, GoTy.lift, ih]

theorem lift_slice (t : GoTy) (xs : List GoVal) :
    GoVal.lift (.slice t xs) = .slice (GoTy.lift t) (xs.map GoVal.lift) := by
  simp [GoVal.lift]

theorem lift_num (k : Kind) (n : Nat) : GoVal.lift (.num k n) = .num k n := by simp [GoVal.lift]

theorem lift_str (s : Bytes) : GoVal.lift (.str s) = .str s := by simp [GoVal.lift]

/-- The two lists have the same length and go together. -/
inductive Pairs {α β : Type} (R : α → β → Prop) : List α → List β → Prop
  | nil : Pairs R [] []
  | cons {x : α} {y : β} {xs : List α} {ys : List β} : R x y → Pairs R xs ys → Pairs R (x :: xs) (y :: ys)

theorem Pairs.length {α β : Type} {R : α → β → Prop} {xs : List α} {ys : List β} (h : Pairs R xs ys) :
    xs.length = ys.length := by
  induction h with
  | nil => rfl
  | cons _ _ ih => simp [ih]

theorem Pairs.get {α β : Type} {R : α → β → Prop} {xs : List α} {ys : List β} (h : Pairs R xs ys) :
    ∀ i (h1 : i < xs.length) (h2 : i < ys.length), R xs[i] ys[i] := by
  induction h with
  | nil => intro i h1; simp at h1
  | cons hr _ ih =>
    intro i h1 h2
    cases i with
    | zero => exact hr
    | succ i => exact ih i (by simpa using h1) (by simpa using h2)

theorem Pairs.split {α β : Type} {R : α → β → Prop} {xs1 xs2 : List α} {ys : List β} (h : Pairs R (xs1 ++ xs2) ys) :
    ∃ ys1 ys2, ys = ys1 ++ ys2 ∧ Pairs R xs1 ys1 ∧ Pairs R xs2 ys2 := by
  induction xs1 generalizing ys with
  | nil => exact ⟨[], ys, rfl, .nil, h⟩
  | cons x xs ih =>
    cases h with
    | cons hr h =>
      obtain ⟨ys1, ys2, rfl, h1, h2⟩ := ih h
      exact ⟨_ :: ys1, ys2, rfl, .cons hr h1, h2⟩

theorem Pairs.map {α β : Type} {R : α → β → Prop} (f : α → β) (xs : List α) (h : ∀ x ∈ xs, R x (f x)) :
    Pairs R xs (xs.map f) := by
  induction xs with
  | nil => exact .nil
  | cons x xs ih => exact .cons (h x (by simp)) (ih fun y hy => h y (by simp [hy]))

theorem map_getD_range {α : Type} (xs : List α) (a : α) : (List.range xs.length).map (fun i => xs.getD i a) = xs := by
  apply List.ext_getElem
  · simp
  · intro i h1 h2
    simp [h2]

/-- The rows of an array, as lists. -/
theorem shown_rows (heap : HeapFn) (dt : DT) (ds : List Nat) (hby : ByElement dt) (vs : List TVal) (bs : List Bytes)
    (hz : (∃ n e, dt = .vlen n false e) → vs ≠ [])
    (h : Pairs (fun v b => Shown heap dt ds b v) vs bs) :
    Shown heap dt (vs.length :: ds) bs.flatten (.slice (goTy dt ds) vs) := by
  have hl := h.length
  have := Shown.rows (heap := heap) dt vs.length ds (fun i => bs.getD i []) (fun i => vs.getD i .nil) hby
    (fun hs => List.length_pos_iff.2 (hz hs)) (by
      intro i hi
      have := h.get i hi (by omega)
      have h2 : i < bs.length := by omega
      simpa [hi, h2] using this)
  rw [map_getD_range] at this
  have e : (List.range vs.length).flatMap (fun i => bs.getD i []) = bs.flatten := by
    rw [hl, List.flatMap_def, map_getD_range]
  rwa [e] at this

/-- An array of elements that are shown. -/
theorem shown_rect {heap : HeapFn} {dt : DT} {base : GoTy} {leaf : GoVal → Prop} (hby : ByElement dt)
    (hgo : ∀ ds, goTy dt ds = sliceTy (GoTy.lift base) ds) {dims : List Nat}
    (hz : (∃ n e, dt = .vlen n false e) → ∀ d ∈ dims, d ≠ 0) {v : GoVal} (hv : Rect base leaf dims v)
    {bs : List Bytes} (h : Pairs (fun x b => Shown heap dt [] b (GoVal.lift x)) (leaves dims.length v) bs) :
    Shown heap dt dims bs.flatten (GoVal.lift v) := by
  induction dims generalizing v bs with
  | nil =>
    simp only [List.length_nil, leaves] at h
    cases h with
    | cons hr h =>
      cases h
      simpa using hr
  | cons d ds ih =>
    obtain ⟨xs, rfl, hd, hx⟩ := hv
    rw [lift_slice, lift_tyNest, ← hgo ds]
    simp only [List.length_cons, leaves] at h
    have hgroup : ∀ (xs : List GoVal) (bs : List Bytes), (∀ x ∈ xs, Rect base leaf ds x) →
        Pairs (fun x b => Shown heap dt [] b (GoVal.lift x)) (xs.flatMap (leaves ds.length)) bs →
        ∃ cs : List Bytes, cs.flatten = bs.flatten ∧ Pairs (fun v b => Shown heap dt ds b v) (xs.map GoVal.lift) cs := by
      intro xs
      induction xs with
      | nil =>
        intro bs _ h
        cases h
        exact ⟨[], rfl, .nil⟩
      | cons x xs ihx =>
        intro bs hx h
        rw [List.flatMap_cons] at h
        obtain ⟨bs1, bs2, rfl, h1, h2⟩ := h.split
        obtain ⟨cs, e, hc⟩ := ihx bs2 (fun y hy => hx y (by simp [hy])) h2
        refine ⟨bs1.flatten :: cs, by simp [e], .cons (ih (fun hs e he => hz hs e (by simp [he])) (hx x (by simp)) h1) hc⟩
    obtain ⟨cs, e, hc⟩ := hgroup xs bs hx h
    have := shown_rows heap dt ds hby (xs.map GoVal.lift) cs (by
      intro hs he
      have := hz hs d (by simp)
      simp at he
      simp [he] at hd
      omega) hc
    rw [List.length_map, hd, e] at this
    exact this

end Verif.H5
