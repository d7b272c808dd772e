import Verif.Spec.H5Read
import Verif.Spec.H5Path
import Verif.Spec.H5Session
/-!
Specification for slices of HDF5 variables that were written: histories of reading calls, and what
`GetVarGetter` and the calls on the getter should return.
-/
namespace Verif.H5

/-- The lengths of a value of a user-defined type along its first `n` dimensions. -/
def extentsT : Nat → TVal → List Nat
  | n, .enum v _ _ => extentsT n v
  | 0, _ => []
  | n + 1, .slice _ [] => 0 :: List.replicate n 0
  | n + 1, .slice _ (x :: xs) => (xs.length + 1) :: extentsT n x
  | _ + 1, _ => []

/-- The lengths of a value along its first `n` dimensions. -/
def extents : Nat → GoVal → List Nat
  | 0, _ => []
  | n + 1, .user v => extentsT (n + 1) v
  | n + 1, .slice _ [] => 0 :: List.replicate n 0
  | n + 1, .slice _ (x :: xs) => (xs.length + 1) :: extents n x
  | _ + 1, _ => []

/-- The shape of a variable. -/
def HVar.extents (v : HVar) : List Nat := H5.extents v.dims.length v.val

/-- `Len()`: the number of rows, and one for a scalar. -/
def HVar.rows (v : HVar) : Nat := v.extents.headD 1

/-- The rows from `b` to `e` are rows of the variable; of a scalar there is the one row. -/
def RowsIn (v : HVar) (b e : Int) : Prop := 0 ≤ b ∧ b ≤ e ∧ e ≤ v.rows ∧ (v.dims = [] → b < e)

/-- A call that reads from the variable `name` of the group at `path`: `GetVariable`, and `Values`,
`GetSlice` and `GetSliceMD` of what `GetVarGetter` returns. -/
inductive ReadCall
  | whole (path name : Bytes)
  | values (path name : Bytes)
  | slice (path name : Bytes) (b e : Int)
  | box (path name : Bytes) (b e : List Int)

/-- What a call leaves behind in the open file. -/
def ReadCall.run (s : Src) (o : Obj) (t : VTab) : ReadCall → VTab
  | .whole path name =>
    match (rootGroup o).getGroup path with
    | .ok g => (g.getVariable s t name).1
    | _ => t
  | .values path name => onGetter path name fun h => (h.values s t).1
  | .slice path name b e => onGetter path name fun h => (h.getSlice s t b e).1
  | .box path name b e => onGetter path name fun h => (h.getSliceMD s t b e).1
where
  /-- A call on the getter of a variable. -/
  onGetter (path name : Bytes) (f : HGetter → VTab) : VTab :=
    match (rootGroup o).getGroup path with
    | .ok g =>
      match g.getVarGetter s name with
      | .ok h => f h
      | _ => t
    | _ => t

/-- What a history of calls leaves behind in the open file. -/
def runReads (s : Src) (o : Obj) (cs : List ReadCall) : VTab := cs.foldl (ReadCall.run s o) []

/-- A call that asks for rows that are there, or for `b > e`, which is refused. -/
def ReadCall.Fine (root : HGroup) : ReadCall → Prop
  | .whole _ _ => True
  | .values _ _ => True
  | .slice path name b e => ∀ names v, PathOf names path → root.var? names name = some v →
      e < b ∨ RowsIn v b e
  | .box path name bs es => ∀ names v, PathOf names path → root.var? names name = some v →
      ∀ b bs', bs = b :: bs' → ∀ e es', es = e :: es' → e < b ∨ RowsIn v b e

/-- The call asks for a part of a variable of this name. -/
def ReadCall.Cuts (name : Bytes) : ReadCall → Prop
  | .whole _ _ => False
  | .values _ _ => False
  | .slice _ n _ _ => n = name
  | .box _ n _ _ => n = name

/-- What the getter `h` of the variable `v` returns after calls that left `t`. -/
structure GetterReads (s : Src) (v : HVar) (h : HGetter) (t : VTab) : Prop where
  shape : h.shape = v.extents
  len : h.len = v.rows
  attrs : h.attrs = shown v.attrs
  values : (h.values s t).2 = .ok v.val
  scalar : v.dims = [] → (h.getSlice s t 0 1).2 = .ok v.val
  slice : v.dims ≠ [] → ∀ b e : Nat, b ≤ e → e ≤ v.rows → (b < e ∨ ¬ Sequences v.dims.length v.val) →
    (h.getSlice s t b e).2 = .ok (goSlice b e v.val)
  box : v.dims ≠ [] → ∀ rs : List (Nat × Nat), InBox rs v.extents →
    ((∀ r, rs.head? = some r → r.1 < r.2) ∨ ¬ Sequences v.dims.length v.val) →
    (h.getSliceMD s t (rs.map fun r => (r.1 : Int)) (rs.map fun r => (r.2 : Int))).2 =
      .ok (boxSlice rs v.val)
  refused : ∀ b e : Int, e < b → (h.getSlice s t b e).2 = .err .invalidSlice
  lengths : ∀ b e : List Int, b.length ≠ v.dims.length ∨ e.length ≠ v.dims.length →
    (h.getSliceMD s t b e).2 = .err .dimensionality

end Verif.H5
