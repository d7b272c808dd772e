import Verif.Base.GoMap
/-!
Model of netcdf/util/orderedmap.go (the map itself; the type printers are in
Model/AttrTypes.lean).
-/
namespace Verif

/-- netcdf/util/orderedmap.go:15-22 `OrderedMap`. The two type callbacks are left out.
`hiddenKeys map[string]bool` is the list of keys whose entry is `true`. -/
structure OMap (α : Type u) where
  keys : List Bytes
  values : GoMap α
  visible : List Bytes
  hidden : List Bytes
deriving DecidableEq

/-- Lexicographic comparison of Go strings (`<=` on strings compares bytes), used by
`slices.Sort`. -/
def strLe : Bytes → Bytes → Bool
  | [], _ => true
  | _ :: _, [] => false
  | a :: as, b :: bs => a < b || (a == b && strLe as bs)

/-- Insertion into a sorted list. -/
def insertSorted (x : Bytes) : List Bytes → List Bytes
  | [] => [x]
  | y :: ys => if strLe x y then x :: y :: ys else y :: insertSorted x ys

/-- `slices.Sort` on strings: some sorting algorithm; insertion sort stands in for it. -/
def sortStrings : List Bytes → List Bytes
  | [] => []
  | x :: xs => insertSorted x (sortStrings xs)

namespace OMap

/-- netcdf/util/orderedmap.go:30-61 `NewOrderedMap`. `values` is listed in the (arbitrary)
order in which `range values` visits it; a nil map is the empty list. The loop at 44-48
indexes `mapKeys[i]` for each index of `sortedKeys`; the two have equal length there. -/
def new {α : Type u} (keys : List Bytes) (values : GoMap α) : Res (OMap α) :=
  if keys.length ≠ values.length then .err .keysDontMatchValues
  else
    let mapKeys := sortStrings (GoMap.keys values)
    let sortedKeys := sortStrings keys
    if mapKeys ≠ sortedKeys then .err .keysDontMatchValues
    else .ok { keys := keys, values := values, visible := keys, hidden := [] }

/-- netcdf/util/orderedmap.go:64-70 `Add`. -/
def add {α : Type u} (om : OMap α) (name : Bytes) (val : α) : OMap α :=
  let om := if ¬ name ∈ om.hidden then
      { om with keys := om.keys ++ [name], visible := om.visible ++ [name] }
    else om
  { om with values := om.values.set name val }

/-- netcdf/util/orderedmap.go:73-76 `Get`. -/
def get {α : Type u} (om : OMap α) (key : Bytes) : Option α := om.values.get key

/-- netcdf/util/orderedmap.go:88-99 `Hide`. -/
def hide {α : Type u} (om : OMap α) (hiddenKey : Bytes) : OMap α :=
  let hidden := hiddenKey :: om.hidden
  { om with hidden := hidden, visible := om.keys.filter (fun k => ¬ k ∈ hidden) }

/-- netcdf/util/orderedmap.go:103-105 `Keys`. -/
def visibleKeys {α : Type u} (om : OMap α) : List Bytes := om.visible

/-- The empty map, `NewOrderedMap(nil, nil)`. -/
def empty {α : Type u} : OMap α := { keys := [], values := [], visible := [], hidden := [] }

end OMap
end Verif
