import Verif.Model.H5Writer
/-!
Histories of calls on an HDF5 writer and what a user can say about its groups.
-/
namespace Verif.H5

/-- A call on the group at a path. -/
inductive HCall
  | createGroup (path : List Bytes) (name : Bytes)
  | addVar (path : List Bytes) (name : Bytes) (val : GoVal) (dims : List Bytes) (attrs : Attrs)
  | addAttributes (path : List Bytes) (attrs : Attrs)

/-- The state after a call; a call that fails changes nothing. -/
def HCall.run (u : UniTables) (root : HGroup) : HCall → HGroup
  | .createGroup p n => match createGroupH u root p n with | .ok r => r | _ => root
  | .addVar p n v d a => match addVarH u root p n v d a with | .ok r => r | _ => root
  | .addAttributes p a => match addAttributesH u root p a with | .ok r => r | _ => root

/-- The state of a new writer after a history of calls. -/
def runCalls (u : UniTables) (cs : List HCall) : HGroup := cs.foldl (HCall.run u) newRoot

/-- The variable with this name in the group at this path. -/
def HGroup.var? (root : HGroup) (path : List Bytes) (name : Bytes) : Option HVar :=
  (root.at? path).bind fun g => g.info.vars.find? (·.name == name)

end Verif.H5
