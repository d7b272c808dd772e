import Verif.Lemmas.H5Shown
import Verif.Lemmas.H5Declared
import Verif.Lemmas.H5ApiFile
import Verif.Props.H5Sane
import Verif.Props.H5Typed
/-!
C70, C71: values read from any HDF5 file have the shape and the type that the file declares, and what
is read does not depend on what was read before.
-/
namespace Verif.H5
open Sane Fmt

theorem allObjs_addrs (o : Obj) : (allObjs o).map (·.info.addr) = Fmt.addrsBelow o := by
  have hL : ∀ os, (∀ o ∈ os, (allObjs o).map (·.info.addr) = Fmt.addrsBelow o) →
      (allObjsL os).map (·.info.addr) = Fmt.allAddrs os := by
    intro os
    induction os with
    | nil => intro _; rfl
    | cons o os ih =>
      intro h
      rw [allObjsL, Fmt.allAddrs, List.map_append, h o (by simp), ih (fun x hx => h x (by simp [hx]))]
  induction o using Obj.rec (motive_2 := fun os => ∀ o ∈ os, (allObjs o).map (·.info.addr) = Fmt.addrsBelow o) with
  | mk i kids ih =>
    rw [allObjs, List.map_cons, hL kids ih, Fmt.addrsBelow]
    rfl
  | nil => rename_i h; simp at h
  | cons o os h1 h2 =>
    rename_i x hx
    rcases List.mem_cons.1 hx with rfl | hx
    · exact h1
    · exact h2 x hx

theorem allObjsL_addrs (os : List Obj) : (allObjsL os).map (·.info.addr) = Fmt.allAddrs os := by
  induction os with
  | nil => rfl
  | cons o os ih => rw [allObjsL, Fmt.allAddrs, List.map_append, allObjs_addrs, ih]

/-- A variable that is found is an object below the root group. -/
theorem Reached.finds {o : Obj} {G : Group} (h : Reached o G) {name : Bytes} {k : Obj} (hf : G.findVariable name = some k) :
    k ∈ allObjsL o.kids := by
  have hq := h.inherits (q := fun x => ∀ y ∈ x.kids, ∀ z ∈ allObjs y, z ∈ allObjsL o.kids)
    (fun x hx y hy z hz w hw => hx y hy w (kid_mem_allObjs hz hw)) (fun y hy z hz => mem_allObjsL hy hz)
  rw [Group.findVariable] at hf
  split at hf
  · cases hf
  · rename_i c hc
    split at hf
    · cases hf
    split at hf
    · cases hf
    cases hf
    exact hq.2 k (List.mem_of_find?_eq_some hc) k (self_mem_allObjs k)

theorem AnyRead.finds {o : Obj} {c : AnyRead} (h : Reached o c.group) {k : Obj} (hf : c.var = some k) : k ∈ allObjsL o.kids := by
  cases c with
  | whole G name => exact Reached.finds (G := G) h hf
  | slice G name b e => exact Reached.finds (G := G) h hf

/-- What is known of the state of a variable after any calls. -/
theorem kept_after (file : Bytes) (o : Obj) (ho : OpensTo file o) (s : Src) (ord : List Nat → List NamedType → List NamedType)
    (calls : List AnyRead) (hr : ∀ c ∈ calls, Reached o c.group) {G : Group} (hG : Reached o G) {name : Bytes} {k : Obj}
    (hf : G.findVariable name = some k) {dt : DT} (hdt : k.info.dt = some dt) (hk : Keeps dt)
    (hst : Steady dt (k.info.dims.getD [])) (A B : Prop)
    (hA : A → ∀ c ∈ calls, c.var = some k → c.isSlice = false)
    (hB : B → k.info.chunk = none ∨ k.info.dims.getD [] ≠ [] ∧ ∀ c ∈ calls, c.var = some k → c.isSlice = true) :
    Kept s k dt A B ((readAny ord s calls).of k) := by
  have hnd := C62_addresses file o ho
  rw [← allObjsL_addrs] at hnd
  refine Kept.all calls hk hst [] (Kept.fresh hdt) ?_ hA hB
  intro c hc k' hk' ha
  exact addr_inj (·.info.addr) _ hnd (AnyRead.finds (hr c hc) hk') (hG.finds hf) ha

/-! ### C70 -/

/-- The dimensions of the rows from `b` to `e`; a scalar has none. -/
def rowsOf (dims : List Nat) (b e : Int) : List Nat :=
  match dims with
  | [] => []
  | _ :: ds => (e - b).toNat :: ds

theorem sliceDims_rowsOf (dims : List Nat) {b e : Int} (h : b ≤ e) (hb : -2 ^ 63 ≤ b) (he : e < 2 ^ 63) :
    sliceDims dims (some (b, e)) = rowsOf dims b e := by
  cases dims with
  | nil => rfl
  | cons d ds =>
    simp only [sliceDims, rowsOf, u64, List.cons.injEq, and_true]
    omega

/-- C70. For every HDF5 file that can be opened, whatever has been read before: if `GetVariable`
returns a value, it is an array with the shape of the variable and elements of its type; and if
`GetSlice(b, e)` returns a value, it is one with `e - b` rows. `GetVariable` returns a part after a part
of the variable was asked for (C22), and a variable with an array type changes when it is read (C55);
these are left out. -/
theorem C70_declared (file : Bytes) (o : Obj) (ho : OpensTo file o) (inflate : Bytes → Res Bytes) (fuel : Nat)
    (ord : List Nat → List NamedType → List NamedType)
    (calls : List AnyRead) (hr : ∀ c ∈ calls, Reached o c.group) (G : Group) (hG : Reached o G) (name : Bytes) (k : Obj)
    (hf : G.findVariable name = some k) (dt : DT) (hdt : k.info.dt = some dt) (hk : Keeps dt)
    (hst : calls = [] ∨ Steady dt (k.info.dims.getD [])) :
    ((∀ c ∈ calls, c.var = some k → c.isSlice = false) →
      ∀ v, (G.getVariableT (G.cast ord) ⟨inflate, fuel, file⟩ (readAny ord ⟨inflate, fuel, file⟩ calls) name).2 = .ok v →
        Declared true dt (k.info.dims.getD []) v.values) ∧
    ∀ b e v, (k.getSliceT (G.cast ord) ⟨inflate, fuel, file⟩ (readAny ord ⟨inflate, fuel, file⟩ calls) b e).2 = .ok v →
      -2 ^ 63 ≤ b → e < 2 ^ 63 → Declared true dt (rowsOf (k.info.dims.getD []) b e) v := by
  have key : ((readAny ord ⟨inflate, fuel, file⟩ calls).of k).dt = some dt ∧
      ((∀ c ∈ calls, c.var = some k → c.isSlice = false) → ((readAny ord ⟨inflate, fuel, file⟩ calls).of k).sl = none) := by
    rcases hst with rfl | hst
    · exact ⟨hdt, fun _ => rfl⟩
    · have h := kept_after file o ho ⟨inflate, fuel, file⟩ ord calls hr hG hf hdt hk hst
        (∀ c ∈ calls, c.var = some k → c.isSlice = false) False id (fun x => x.elim)
      exact ⟨h.ty, fun a => (h.whole a).1⟩
  constructor
  · intro hn v hv
    rw [Group.getVariableT, hf] at hv
    simp only at hv
    split at hv
    · cases hv
    · cases hv
    · cases hv
    · rename_i x st _ hd
      have h1 := (objDataT_inv key.1 hk hd).1
      rw [key.2 hn] at h1
      simp only at hv
      rcases hm : varMetaT (G.cast ord) ⟨inflate, fuel, file⟩ G.root k with m | e | _
      · rw [hm] at hv
        cases hv
        exact h1
      · rw [hm] at hv; cases hv
      · rw [hm] at hv; cases hv
  · intro b e v hv hb he
    rw [Obj.getSliceT] at hv
    split at hv
    · rename_i hc
      have h0 : rowsOf (k.info.dims.getD []) b e = [] := by rw [hc.2.2]; rfl
      split at hv
      · cases hv
      · cases hv
      · cases hv
      · rename_i x st _ hd
        cases hv
        have h1 := (objDataT_inv key.1 hk hd).1
        rw [hc.2.2] at h1
        rw [h0]
        revert h1
        rcases ((readAny ord ⟨inflate, fuel, file⟩ calls).of k).sl with _ | ⟨x, y⟩ <;> exact id
    · split at hv
      · cases hv
      · rename_i hbe
        simp only at hv
        split at hv
        · cases hv
        · cases hv
        · cases hv
        · rename_i x st _ hd
          cases hv
          have h1 := (objDataT_inv (st := ⟨some (b, e), _, _⟩) key.1 hk hd).1
          rw [sliceDims_rowsOf _ (by omega) hb he] at h1
          exact h1

/-- Arrays of elements that are values of the writer's model. -/
theorem Declared.lifted {dt : DT} (hb : ByElement dt) (hq : ¬ IsSeq dt) (base : GoTy) (leaf : GoVal → Prop)
    (hg : ∀ ds, goTy dt ds = sliceTy (GoTy.lift base) ds) (ha : ∀ n ad e, dt ≠ .array n ad e)
    (h0 : ∀ v, Declared true dt [] v → ∃ w, leaf w ∧ v = GoVal.lift w) :
    ∀ (dims : List Nat) (v : TVal), Declared true dt dims v → ∃ w, Rect base leaf dims w ∧ v = GoVal.lift w
  | [], v, h => h0 v h
  | d :: ds, v, h => by
    generalize hD : d :: ds = D at h
    cases h with
    | num => cases hD
    | ref => cases hD
    | str => cases hD
    | blob => cases hD
    | vlenStr => cases hD
    | seq => cases hD
    | compound => cases hD
    | time => exact absurd hb (by simp [ByElement])
    | chars => exact absurd hb (by simp [ByElement])
    | enum => exact absurd hb (by simp [ByElement])
    | array => exact absurd hb (by simp [ByElement])
    | rows _ _ d' ds' t xs hor hl hx ht =>
      cases hD
      have ih : ∀ ys : List TVal, (∀ y ∈ ys, Declared true dt ds y) →
          ∃ ws : List GoVal, (∀ w ∈ ws, Rect base leaf ds w) ∧ ys = ws.map GoVal.lift := by
        intro ys
        induction ys with
        | nil => exact fun _ => ⟨[], by simp, rfl⟩
        | cons y ys ih =>
          intro h
          obtain ⟨w, h1, h2⟩ := Declared.lifted hb hq base leaf hg ha h0 ds y (h y (by simp))
          obtain ⟨ws, h3, h4⟩ := ih (fun z hz => h z (by simp [hz]))
          exact ⟨w :: ws, by simpa using ⟨h1, h3⟩, by rw [List.map_cons, h2, h4]⟩
      obtain ⟨ws, h1, h2⟩ := ih xs hx
      refine ⟨.slice (tyNest base ds) ws, ⟨ws, rfl, ?_, h1⟩, ?_⟩
      · rw [← hl, h2, List.length_map]
      · rw [lift_slice, lift_tyNest, ← hg, ← h2, ht rfl hb hq]

/-- C70 for numbers: what is declared is a rectangular Go array of numbers of the kind. -/
theorem C70_numbers (be : Bool) (k : Kind) (dims : List Nat) (v : TVal) (h : Declared true (storedNum be k) dims v) :
    ∃ w, NumArray k dims w ∧ v = GoVal.lift w := by
  refine Declared.lifted (stored_byElement be k).1 (stored_byElement be k).2 (.num k) (NumVal k) (goTy_stored be k)
    (by intros; cases k <;> simp [storedNum]) ?_ dims v h
  intro v h
  generalize hdt : storedNum be k = dt at h
  generalize hD : [] = D at h
  cases h with
  | num _ be' k' bits hb =>
    have : k = k' := by
      revert hdt
      cases k <;> cases k' <;> simp [storedNum]
    cases this
    exact ⟨.num k bits, ⟨bits, rfl, hb⟩, (lift_num k bits).symm⟩
  | rows => cases hD
  | chars => cases hD
  | ref => exfalso; revert hdt; cases k <;> simp [storedNum]
  | time => exfalso; revert hdt; cases k <;> simp [storedNum]
  | str => exfalso; revert hdt; cases k <;> simp [storedNum]
  | blob => exfalso; revert hdt; cases k <;> simp [storedNum]
  | enum => exfalso; revert hdt; cases k <;> simp [storedNum]
  | vlenStr => exfalso; revert hdt; cases k <;> simp [storedNum]
  | seq => exfalso; revert hdt; cases k <;> simp [storedNum]
  | compound => exfalso; revert hdt; cases k <;> simp [storedNum]
  | array => exfalso; revert hdt; cases k <;> simp [storedNum]

/-- C70 for strings with a fixed length: what is declared is a rectangular Go array of strings that are
not longer. -/
theorem C70_strings (n : Nat) (hn : n ≠ 1) (dims : List Nat) (v : TVal) (h : Declared true (.str n) dims v) :
    ∃ w, StrArray n dims w ∧ v = GoVal.lift w := by
  refine Declared.lifted (dt := .str n) hn (by simp [IsSeq]) .str (StrVal n) (fun ds => ?_) (by simp) ?_ dims v h
  · cases ds <;> simp [goTy, hn, GoTy.lift]
  intro v h
  generalize hdt : DT.str n = dt at h
  generalize hD : [] = D at h
  cases h with
  | num _ be k => exfalso; revert hdt; cases k <;> simp [storedNum]
  | ref => cases hdt
  | time => cases hdt
  | blob => cases hdt
  | enum => cases hdt
  | vlenStr => cases hdt
  | seq => cases hdt
  | compound => cases hdt
  | array => cases hdt
  | str _ _ s hl h0 =>
    cases hdt
    exact ⟨.str s, ⟨s, rfl, hl⟩, (lift_str s).symm⟩
  | rows => cases hD
  | chars => cases hD

/-! ### Attributes -/

theorem undoScalarT_unwrapped : ∀ w : TVal, UnwrappedT w (undoScalarT w)
  | .slice _ [x] => .one _ x
  | .compound [n] [x] => .field n x
  | .enum w ns ms => .enum w _ ns ms (undoScalarT_unwrapped w)
  | .slice _ [] => .other _ (by simp) (by simp) (by simp)
  | .slice _ (_ :: _ :: _) => .other _ (by simp) (by simp) (by simp)
  | .compound [] _ => .other _ (by simp) (by simp) (by simp)
  | .compound [_] [] => .other _ (by simp) (by simp) (by simp)
  | .compound [_] (_ :: _ :: _) => .other _ (by simp) (by simp) (by simp)
  | .compound (_ :: _ :: _) _ => .other _ (by simp) (by simp) (by simp)
  | .num _ _ => .other _ (by simp) (by simp) (by simp)
  | .str _ => .other _ (by simp) (by simp) (by simp)
  | .opaque _ => .other _ (by simp) (by simp) (by simp)
  | .field _ _ => .other _ (by simp) (by simp) (by simp)
  | .nil => .other _ (by simp) (by simp) (by simp)

theorem attrRawT_inv {cast : DT → Res Unit} {heap : HeapFn} {fill : Bytes} {a : Attr} {v : TVal} (hk : Keeps a.dt)
    (h : attrRawT cast heap fill a = .ok v) : Declared true a.dt a.dims v ∨ ∃ s, a.data = .value s ∧ v = .str s := by
  unfold attrRawT at h
  simp only at h
  have key : ∀ b : Bytes, (onBytes b (allocTy cast heap a.dt a.dims)).map (·.1) = .ok v → Declared true a.dt a.dims v := by
    intro b h
    rcases ho : onBytes b (allocTy cast heap a.dt a.dims) with ⟨w, t⟩ | _ | _
    · rw [ho] at h
      cases h
      obtain ⟨s', h2⟩ := onBytes_inv ho
      exact (allocT_inv cast heap _ a.dt _ hk _ _ _ _ h2).1
    · rw [ho] at h; cases h
    · rw [ho] at h; cases h
  split at h
  · rename_i s hs
    cases h
    exact .inr ⟨s, hs, rfl⟩
  · exact .inl (key _ h)
  · exact .inl (key _ h)

theorem parseAttrT_inv {cast : DT → Res Unit} {heap : HeapFn} {i : Info} {a : Attr} {v : TVal} (hk : Keeps a.dt)
    (h : parseAttrT cast heap i a = .ok v) : v = .nil ∨ Declared true a.dt a.dims v ∨ ∃ s, a.data = .value s ∧ v = .str s := by
  unfold parseAttrT at h
  split at h
  · rename_i s hs
    cases h
    exact .inr (.inr ⟨s, hs, rfl⟩)
  · cases h
    exact .inl rfl
  · split at h
    · cases h
    · cases h
    · exact .inr (attrRawT_inv hk h)

theorem parseAttrsT_inv {cast : DT → Res Unit} {heap : HeapFn} {i : Info} : ∀ {as : List Attr} {vs : List (Attr × TVal)},
    (∀ a ∈ as, Keeps a.dt) → parseAttrsT cast heap i as = .ok vs → vs.map (·.1) = as ∧
      ∀ x ∈ vs, x.2 = .nil ∨ Declared true x.1.dt x.1.dims x.2 ∨ ∃ s, x.1.data = .value s ∧ x.2 = .str s
  | [], vs, hk, h => by cases h; simp
  | a :: as, vs, hk, h => by
    unfold parseAttrsT at h
    split at h
    · cases h
    · cases h
    · rename_i v hv
      split at h
      · cases h
      · cases h
      · rename_i us hu
        cases h
        obtain ⟨h1, h2⟩ := parseAttrsT_inv (fun x hx => hk x (by simp [hx])) hu
        refine ⟨by rw [List.map_cons, h1], ?_⟩
        intro x hx
        rcases List.mem_cons.1 hx with rfl | hx
        · exact parseAttrT_inv (hk a (by simp)) hv
        · exact h2 x hx

theorem shownAttr_inv {cast : DT → Res Unit} {heap : HeapFn} {a : Attr} {v w : TVal} (hk : Keeps a.dt)
    (hv : v = .nil ∨ Declared true a.dt a.dims v ∨ ∃ s, a.data = .value s ∧ v = .str s)
    (h : shownAttr cast heap a v = .ok w) : AttrDeclared a w := by
  unfold shownAttr at h
  split at h
  · split at h
    · cases h
    · cases h
    · cases h
    · rename_i u _ hu
      cases h
      have := attrRawT_inv (a := { a with data := .none }) hk hu
      exact ⟨u, undoScalarT_unwrapped u, this.elim .inl (by rintro ⟨s, h, _⟩; cases h)⟩
  · rename_i hn
    cases h
    exact ⟨v, undoScalarT_unwrapped v, hv.resolve_left hn⟩

theorem mem_set {α : Type} {m : GoMap α} {k : Bytes} {v : α} {x : Bytes × α} (h : x ∈ m.set k v) : x = (k, v) ∨ x ∈ m := by
  induction m with
  | nil => simpa [GoMap.set] using h
  | cons p m ih =>
    simp only [GoMap.set] at h
    split at h
    · rcases List.mem_cons.1 h with h | h
      · exact .inl h
      · exact .inr (by simp [h])
    · rcases List.mem_cons.1 h with h | h
      · exact .inr (by simp [h])
      · exact (ih h).imp id (fun h => by simp [h])

theorem mem_keys_set {α : Type} (m : GoMap α) (k : Bytes) (v : α) (key : Bytes) :
    key ∈ (m.set k v).keys ↔ key = k ∨ key ∈ m.keys := by
  have h1 := GoMap.get_eq_none (m.set k v) key
  have h2 := GoMap.get_eq_none m key
  rw [GoMap.get_set] at h1
  by_cases hk : key = k
  · rw [if_pos hk] at h1
    simp only [hk, true_or, iff_true]
    rw [hk] at h1
    exact Classical.byContradiction fun h => by simp [h] at h1
  · rw [if_neg hk] at h1
    rw [h1] at h2
    simp only [hk, false_or]
    exact ⟨fun h => Classical.byContradiction fun g => (h2.2 g) h, fun h => Classical.byContradiction fun g => (h2.1 g) h⟩

theorem collectAttrsT_inv {cast : DT → Res Unit} {heap : HeapFn} (stored : List Attr) (hk : ∀ a ∈ stored, Keeps a.dt) :
    ∀ {as : List (Attr × TVal)} {m m' : GoMap TVal}, (∀ x ∈ as, x.1 ∈ stored) →
    (∀ x ∈ as, x.2 = .nil ∨ Declared true x.1.dt x.1.dims x.2 ∨ ∃ s, x.1.data = .value s ∧ x.2 = .str s) →
    (∀ x ∈ m, ∃ a ∈ stored, a.name = x.1 ∧ AttrDeclared a x.2) → collectAttrsT cast heap as m = .ok m' →
    (∀ x ∈ m', ∃ a ∈ stored, a.name = x.1 ∧ AttrDeclared a x.2) ∧
    ∀ key, key ∈ m'.keys ↔ key ∈ m.keys ∨ (∃ x ∈ as, x.1.name = key) ∧ hiddenAttrs.contains key = false
  | [], m, m', hs, hv, hm, h => by cases h; exact ⟨hm, by simp⟩
  | (a, v) :: as, m, m', hs, hv, hm, h => by
    unfold collectAttrsT at h
    split at h
    · rename_i hc
      obtain ⟨h1, h2⟩ := collectAttrsT_inv stored hk (fun x hx => hs x (by simp [hx])) (fun x hx => hv x (by simp [hx])) hm h
      refine ⟨h1, fun key => ?_⟩
      rw [h2]
      constructor
      · rintro (h | ⟨⟨x, hx, hn⟩, hh⟩)
        · exact .inl h
        · exact .inr ⟨⟨x, by simp [hx], hn⟩, hh⟩
      · rintro (h | ⟨⟨x, hx, hn⟩, hh⟩)
        · exact .inl h
        · rcases List.mem_cons.1 hx with rfl | hx
          · subst hn
            rw [hc] at hh
            cases hh
          · exact .inr ⟨⟨x, hx, hn⟩, hh⟩
    · rename_i hc
      split at h
      · cases h
      · cases h
      · rename_i w hw
        have ha : a ∈ stored := hs (a, v) (by simp)
        obtain ⟨h1, h2⟩ := collectAttrsT_inv stored hk (m := m.set a.name w) (fun x hx => hs x (by simp [hx]))
          (fun x hx => hv x (by simp [hx])) (by
            intro x hx
            rcases mem_set hx with rfl | hx
            · exact ⟨a, ha, rfl, shownAttr_inv (hk a ha) (hv (a, v) (by simp)) hw⟩
            · exact hm x hx) h
        refine ⟨h1, fun key => ?_⟩
        rw [h2, mem_keys_set]
        constructor
        · rintro ((rfl | h) | ⟨⟨x, hx, hn⟩, hh⟩)
          · exact .inr ⟨⟨(a, v), by simp, rfl⟩, by simpa using hc⟩
          · exact .inl h
          · exact .inr ⟨⟨x, by simp [hx], hn⟩, hh⟩
        · rintro (h | ⟨⟨x, hx, hn⟩, hh⟩)
          · exact .inl (.inr h)
          · rcases List.mem_cons.1 hx with rfl | hx
            · exact .inl (.inl hn.symm)
            · exact .inr ⟨⟨x, hx, hn⟩, hh⟩

theorem getAttributesT_inv {cast : DT → Res Unit} {heap : HeapFn} {i : Info} {vs : List (Attr × TVal)} {m : GoMap TVal}
    (hk : ∀ a ∈ i.attrs, Keeps a.dt) (hp : parseAttrsT cast heap i i.attrs = .ok vs)
    (h : getAttributesT cast heap vs = .ok m) : AttrsDeclared i.attrs m := by
  obtain ⟨h1, h2⟩ := parseAttrsT_inv hk hp
  unfold getAttributesT at h
  rcases hc : collectAttrsT cast heap vs [] with m' | _ | _
  · rw [hc] at h
    cases h
    have hs : ∀ x ∈ vs, x.1 ∈ i.attrs := fun x hx => by rw [← h1]; exact List.mem_map_of_mem hx
    obtain ⟨h3, h4⟩ := collectAttrsT_inv i.attrs hk hs h2 (by simp) hc
    refine ⟨fun key => ?_, fun x hx => h3 x (List.mem_filter.1 hx).1⟩
    have hres : key ∉ reserved ↔ hiddenAttrs.contains key = false ∧ key ≠ ncpKey := by
      simp only [reserved, hiddenAttrs, kDimid, kCoordinates, kDimList, kName, kRefList, kClass, ncpKey,
        List.contains_eq_mem, decide_eq_false_iff_not, List.mem_cons, List.not_mem_nil, or_false, not_or]
      grind
    rw [hres]
    have hn : (∃ x ∈ vs, x.1.name = key) ↔ ∃ a ∈ i.attrs, a.name = key := by
      rw [← h1]
      simp
    have h5 := h4 key
    simp only [GoMap.keys, List.map_nil, List.not_mem_nil, false_or, hn] at h5
    simp only [GoMap.keys, List.mem_map, List.mem_filter, decide_eq_true_eq] at h5 ⊢
    constructor
    · rintro ⟨x, ⟨hx, hne⟩, rfl⟩
      have := h5.1 ⟨x, hx, rfl⟩
      exact ⟨this.1, this.2, hne⟩
    · rintro ⟨ha, hh, hne⟩
      obtain ⟨x, hx, rfl⟩ := h5.2 ⟨ha, hh⟩
      exact ⟨x, ⟨hx, hne⟩, rfl⟩
  · rw [hc] at h; cases h
  · rw [hc] at h; cases h

/-- C70 for attributes: what `GetVariable` returns for the attributes of a variable, and `Attributes` for
those of a group, are the stored ones that netCDF-4 does not keep for itself, with values of their types. -/
theorem C70_attributes (s : Src) (ord : List Nat → List NamedType → List NamedType) (t : TTab) (G : Group) :
    (∀ name k v, G.findVariable name = some k → (∀ a ∈ k.info.attrs, Keeps a.dt) →
      (G.getVariableT (G.cast ord) s t name).2 = .ok v → AttrsDeclared k.info.attrs v.attrs) ∧
    ∀ m, (∀ a ∈ G.obj.info.attrs, Keeps a.dt) → G.attributesT (G.cast ord) s = .ok m →
      AttrsDeclared G.obj.info.attrs m := by
  constructor
  · intro name k v hf hk hv
    rw [Group.getVariableT, hf] at hv
    simp only at hv
    split at hv
    · cases hv
    · cases hv
    · cases hv
    · simp only at hv
      rcases hm : varMetaT (G.cast ord) s G.root k with m | e | _
      · rw [hm] at hv
        cases hv
        unfold varMetaT at hm
        simp only at hm
        split at hm
        · cases hm
        · cases hm
        · rename_i vs hp
          split at hm
          · cases hm
          · cases hm
          · split at hm
            · cases hm
            · cases hm
            · rename_i hg
              cases hm
              exact getAttributesT_inv hk hp hg
      · rw [hm] at hv; cases hv
      · rw [hm] at hv; cases hv
  · intro m hk h
    unfold Group.attributesT at h
    split at h
    · cases h
    · cases h
    · rename_i vs hp
      rcases hg : getAttributesT (G.cast ord) (heapLookup s.file) vs with m' | _ | _
      · rw [hg] at h
        cases h
        exact getAttributesT_inv hk hp hg
      · rw [hg] at h; cases h
      · rw [hg] at h; cases h

/-! ### C71 -/

/-- Reading from a state that has the bounds, the type and the bytes of another. -/
theorem objDataT_same {cast : DT → Res Unit} {s : Src} {k : Obj} {st st2 st' : TSt} {v : TVal} {dt : DT}
    (hdt : st.dt = some dt) (hdt2 : st2.dt = some dt) (hsl : st2.sl = st.sl)
    (hb : ∀ b blocks, dataBytes s.inflate s.fuel s.file k.info dt (k.info.dims.getD []) st.cached st.sl = .ok (b, blocks) →
      ∃ bl, dataBytes s.inflate s.fuel s.file k.info dt (k.info.dims.getD []) st2.cached st.sl = .ok (b, bl))
    (h : objDataT cast s k st = .ok (v, st')) : ∃ st2', objDataT cast s k st2 = .ok (v, st2') := by
  rw [objDataT, hdt] at h
  rw [objDataT, hdt2, hsl]
  simp only at h ⊢
  split at h
  · cases h
  · cases h
  · rename_i x blocks dt' hg
    cases h
    rw [getDataT] at hg ⊢
    obtain ⟨⟨b, bl⟩, h1, hg⟩ := Res.bind_ok' hg
    obtain ⟨⟨w, t1⟩, h2, hg⟩ := Res.bind_ok' hg
    cases hg
    obtain ⟨bl2, h3⟩ := hb b _ h1
    refine ⟨⟨st.sl, bl2, some dt'⟩, ?_⟩
    rw [h3]
    simp only [bind, Res.bind]
    rw [h2]
    rfl

/-- C71 for whole variables. For every HDF5 file that can be opened: if `GetVariable` returns a value
when the file has just been opened, it returns the same value, dimensions and attributes after any
calls of `GetVariable` and `GetSlice` for this and other variables; unless `GetSlice` was called for
this one (C22), or it has an array type (C55). -/
theorem C71_whole (file : Bytes) (o : Obj) (ho : OpensTo file o) (inflate : Bytes → Res Bytes) (fuel : Nat)
    (ord : List Nat → List NamedType → List NamedType)
    (calls : List AnyRead) (hr : ∀ c ∈ calls, Reached o c.group) (G : Group) (hG : Reached o G) (name : Bytes) (k : Obj)
    (hf : G.findVariable name = some k) (dt : DT) (hdt : k.info.dt = some dt) (hk : Keeps dt)
    (hst : Steady dt (k.info.dims.getD [])) (hn : ∀ c ∈ calls, c.var = some k → c.isSlice = false) (v : TVariable)
    (hv : (G.getVariableT (G.cast ord) ⟨inflate, fuel, file⟩ [] name).2 = .ok v) :
    (G.getVariableT (G.cast ord) ⟨inflate, fuel, file⟩ (readAny ord ⟨inflate, fuel, file⟩ calls) name).2 = .ok v := by
  have hs := kept_after file o ho ⟨inflate, fuel, file⟩ ord calls hr hG hf hdt hk hst True False (fun _ => hn) (fun x => x.elim)
  rw [Group.getVariableT, hf] at hv ⊢
  simp only at hv ⊢
  split at hv
  · cases hv
  · cases hv
  · cases hv
  · rename_i x st hx hd
    obtain ⟨st2, h2⟩ := objDataT_same (st2 := (readAny ord ⟨inflate, fuel, file⟩ calls).of k) (dt := dt) hdt hs.ty
      (hs.whole trivial).1 (fun b blocks hb => by
        rcases (hs.whole trivial).2 with h | ⟨b', h⟩
        · rw [h]; exact ⟨_, hb⟩
        · have : b' = b := by
            have h' := h.symm.trans hb
            cases h'
            rfl
          subst this
          exact ⟨_, (dataBytes_again h).1⟩) hd
    rw [h2]
    cases x <;> first | exact (hx rfl).elim | exact hv

/-- C71 for parts of variables that have dimensions: `GetSlice(b, e)` returns the same after any calls; if
the variable is stored in chunks, `GetVariable` must not have been called for it (C22). -/
theorem C71_part (file : Bytes) (o : Obj) (ho : OpensTo file o) (inflate : Bytes → Res Bytes) (fuel : Nat)
    (ord : List Nat → List NamedType → List NamedType)
    (calls : List AnyRead) (hr : ∀ c ∈ calls, Reached o c.group) (G : Group) (hG : Reached o G) (name : Bytes) (k : Obj)
    (hf : G.findVariable name = some k) (dt : DT) (hdt : k.info.dt = some dt) (hk : Keeps dt)
    (hst : Steady dt (k.info.dims.getD [])) (hd : k.info.dims.getD [] ≠ [])
    (hn : k.info.chunk = none ∨ ∀ c ∈ calls, c.var = some k → c.isSlice = true) (b e : Int) (v : TVal)
    (hv : (k.getSliceT (G.cast ord) ⟨inflate, fuel, file⟩ [] b e).2 = .ok v) :
    (k.getSliceT (G.cast ord) ⟨inflate, fuel, file⟩ (readAny ord ⟨inflate, fuel, file⟩ calls) b e).2 = .ok v := by
  have hs := kept_after file o ho ⟨inflate, fuel, file⟩ ord calls hr hG hf hdt hk hst False True (fun x => x.elim)
    (fun _ => hn.imp id fun h => ⟨hd, h⟩)
  rw [Obj.getSliceT, if_neg (fun h => hd h.2.2)] at hv ⊢
  split at hv
  · cases hv
  · rename_i hbe
    rw [if_neg hbe]
    simp only at hv ⊢
    split at hv
    · cases hv
    · cases hv
    · cases hv
    · rename_i x st hx hdd
      have hc := hs.part trivial
      have ht := hs.ty
      generalize (readAny ord ⟨inflate, fuel, file⟩ calls) = tab at hc ht ⊢
      obtain ⟨st2, h2⟩ := objDataT_same (s := ⟨inflate, fuel, file⟩) (k := k)
        (st := ⟨some (b, e), freshBlocks k, k.info.dt⟩) (st2 := ⟨some (b, e), (tab.of k).cached, (tab.of k).dt⟩) (dt := dt) hdt ht rfl
        (fun c blocks hb => ⟨blocks, by rw [hc]; exact hb⟩) hdd
      rw [h2]
      cases x <;> first | exact (hx rfl).elim | exact hv

/-! ### A file for which the theorems say something -/

/-- The map of types is gone through in the order it is in. -/
def inOrder : List Nat → List NamedType → List NamedType := fun _ l => l

/-- What is read of the variable `a` of a file: all, the second number, and once more all and the second
number after both. -/
def declaredCase (file : Bytes) : Bool :=
  match openN 20 file with
  | .ok o =>
    let G := rootGroup o
    let s : Src := ⟨fun _ => .panic, 20, file⟩
    match G.findVariable (ascii "a") with
    | some k =>
      let all := readAny inOrder s [.whole G (ascii "a"), .whole G (ascii "a")]
      let mix := readAny inOrder s [.whole G (ascii "a"), .slice G (ascii "a") 0 1]
      (match k.info.dt with | some (.fixed 4 true false) => true | _ => false) && (k.info.dims == some [2]) && k.info.chunk.isNone &&
      (match (G.getVariableT (G.cast inOrder) s [] (ascii "a")).2 with
        | .ok ⟨.slice (.num .i32) [.num .i32 1, .num .i32 2], _, _⟩ => true
        | _ => false) &&
      (match (G.getVariableT (G.cast inOrder) s all (ascii "a")).2 with
        | .ok ⟨.slice (.num .i32) [.num .i32 1, .num .i32 2], _, _⟩ => true
        | _ => false) &&
      (match (k.getSliceT (G.cast inOrder) s [] 1 2).2 with
        | .ok (.slice (.num .i32) [.num .i32 2]) => true
        | _ => false) &&
      (match (k.getSliceT (G.cast inOrder) s mix 1 2).2 with
        | .ok (.slice (.num .i32) [.num .i32 2]) => true
        | _ => false)
    | none => false
  | _ => false

/-- The hypotheses and conclusions of C70 and C71 for a file with a variable of two numbers. -/
example : declaredCase (oddVarFile (ascii "a")) = true := by
  decide +kernel

/-- The attributes of the variable `v` of a file: one, `n`, that is a number. -/
def attributeCase (file : Bytes) : Bool :=
  match openN 20 file with
  | .ok o =>
    let G := rootGroup o
    match G.findVariable (ascii "v"), (G.getVariableT (G.cast inOrder) ⟨fun _ => .panic, 20, file⟩ [] (ascii "v")).2 with
    | some k, .ok ⟨_, _, [(name, .num .i32 _)]⟩ =>
      (name == ascii "n") && k.info.attrs.all fun a => match a.dt with | .fixed _ _ _ => true | _ => false
    | _, _ => false
  | _ => false

/-- The hypotheses of C70 for attributes. -/
example : attributeCase denseFile = true := by
  decide +kernel

end Verif.H5
