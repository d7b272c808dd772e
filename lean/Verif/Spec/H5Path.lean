import Verif.Model.H5Object
/-!
Paths in a tree of groups. Of the model, only the tree itself is used.
-/
namespace Verif.H5

/-- The bytes `path` consist of the names `names` with slashes between them. There may be more than
one slash between names, before the first and after the last. -/
inductive PathOf : List Bytes → Bytes → Prop
  | nil (n : Nat) : PathOf [] (List.replicate n 47)
  | cons (n : Nat) (name : Bytes) (names : List Bytes) (rest : Bytes) : name ≠ [] → 47 ∉ name →
      (rest = [] ∨ rest.head? = some 47) → PathOf names rest →
      PathOf (name :: names) (List.replicate n 47 ++ name ++ rest)

/-- The group that is reached from a group by these names. -/
def follow : Obj → List Bytes → Option Obj
  | o, [] => if o.info.isGroup then some o else none
  | o, name :: names =>
    if o.info.isGroup then
      match o.kids.find? (fun k => k.info.name == name) with
      | some c => follow c names
      | none => none
    else none

end Verif.H5
