import Verif.Model.CdfReader
/-!
Where the sizes of records are stored: each variable in the header of a CDF file ends with its
`vsize` and its `begin`.
-/
namespace Verif.Cdf

/-- A count or size in a header: four bytes, eight in version 5. -/
def numBytes (version n : Nat) : Bytes := if version = 5 then beEnc 8 n else beEnc 4 n

/-- An offset in a header: four bytes in version 1, otherwise eight. -/
def offBytes (version n : Nat) : Bytes := if version = 1 then beEnc 4 n else beEnc 8 n

/-- The entry of a variable in a header: name, dimensions, attributes and type in `lead`, then
`vsize` and the offset of the variable. -/
structure VarEntry where
  lead : Bytes
  vsize : Nat
  var : VarRec

/-- The bytes of an entry. -/
def VarEntry.bytes (version : Nat) (e : VarEntry) : Bytes :=
  e.lead ++ (numBytes version e.vsize ++ offBytes version e.var.begin_)

/-- A variable whose first dimension is the unlimited one, which is stored with length 0. -/
def VarEntry.isRecord (dims : List Dim) (e : VarEntry) : Bool :=
  match e.var.dimids with
  | [] => false
  | id :: _ => (dims[id]?).any (·.length == 0)

end Verif.Cdf
