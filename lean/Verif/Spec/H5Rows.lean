import Verif.Spec.H5Typed
import Verif.Spec.H5Array
import Verif.Spec.H5Chunk
import Verif.Model.H5TypedApi
/-!
Specification for rows of variables of any HDF5 file.
-/
namespace Verif.H5

/-- Types whose values are one number, one string or one member of an enumeration. -/
def OneValue : DT → Prop
  | .fixed _ _ _ => True
  | .float _ _ => True
  | .str _ => True
  | .ref _ => True
  | .enum _ _ _ _ => True
  | .vlen _ true _ => True
  | _ => False

/-- Types whose values follow one another in an array, each with as many bytes as the type says. Arrays
of characters are strings, which end at a NUL byte; a reference to a region does not have the length of an
address. The Go types of sequences depend on all of them, unless the elements are single values. -/
def Rowwise : DT → Prop
  | .fixed _ _ _ => True
  | .float _ _ => True
  | .time _ => False
  | .str n => n ≠ 1
  | .opaque _ _ => True
  | .compound _ _ _ => True
  | .ref n => n = 8
  | .enum n b _ _ => n = b.len
  | .vlen n true _ => n = 16
  | .vlen n false e => n = 16 ∧ OneValue e
  | .array n ad e => n = prod ad * e.len ∧ Rowwise e

/-- The bytes of the variable are there, whatever they are: in one piece or as fill values, or in chunks
that are runs of elements. -/
def HasBytes (inflate : Bytes → Res Bytes) (fuel : Nat) (file : Bytes) (i : Info) (dt : DT) (dims : List Nat) : Prop :=
  (∃ cell pat, FlatVar file i dt dims cell pat) ∨
  ∃ cell pat t addr, StoredVar inflate file i dt dims cell pat t addr ∧ t.depth ≤ fuel ∧ i.blocks = [] ∧
    StripesInOrder dims i.layout ∧ needsLayoutReader dims i.layout = .ok false

end Verif.H5
