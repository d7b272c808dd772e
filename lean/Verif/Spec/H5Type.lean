import Verif.Model.H5Type
/-!
Specification for datatype messages: what the reader has to find for a type of the writer, and the
types for which it does.
-/
namespace Verif.H5

/-- Name, offset and dimensions of the members of a compound whose fields follow each other without
gaps, from the offset `off`. -/
def packed : Nat → List Bytes → List WTy → List (Bytes × Nat × Option (List Nat))
  | off, n :: ns, t :: ts => (n, off, none) :: packed (off + t.fieldSize) ns ts
  | _, _, _ => []

mutual
/-- Same class, size, signedness, members; little-endian. -/
def WTy.dt : WTy → DT
  | .num k => if k.isFloat then .float k.size false else .fixed k.size k.signed false
  | .fixStr n => .str n
  | .vlenStr => .vlen 16 true (.str 1)
  | .vlenSeq t => .vlen 16 false t.dt
  | .opaque n => .opaque n false
  | .compound names ts => .compound (fieldSizes ts) (packed 0 names ts) (dts ts)
  | .enum k names vals => .enum k.size (.fixed k.size k.signed false) names vals
  | .ref => .ref 8
/-- The types of the members. -/
def dts : List WTy → List DT
  | [] => []
  | t :: ts => t.dt :: dts ts
end

mutual
/-- The types whose messages the reader understands. `last`: nothing follows in the message. An
opaque type has to be the last one, a compound has at most 255 members and a size of one or two
bytes (or of four), names have no NUL. -/
def WTy.Readable (last : Bool) : WTy → Prop
  | .num _ => True
  | .fixStr n => 0 < n ∧ n < 2 ^ 32
  | .vlenStr => True
  | .vlenSeq t => t.Readable last
  | .opaque n => last = true ∧ 0 < n ∧ n < 2 ^ 32
  | .compound names ts =>
    names.length = ts.length ∧ ts.length ≤ 255 ∧ (∀ n ∈ names, (0 : UInt8) ∉ n) ∧
      0 < fieldSizes ts ∧ fieldSizes ts < 2 ^ 32 ∧
      ¬ (65536 ≤ fieldSizes ts ∧ fieldSizes ts < 16777216) ∧ Readables last ts
  | .enum k names vals =>
    k.isFloat = false ∧ names.length = vals.length ∧ names.length ≤ 255 ∧
      (∀ n ∈ names, (0 : UInt8) ∉ n) ∧ ∀ v ∈ vals, v < 256 ^ k.size
  | .ref => True
/-- The members of a compound. -/
def Readables (last : Bool) : List WTy → Prop
  | [] => True
  | [t] => t.Readable last
  | t :: ts => t.Readable false ∧ Readables last ts
end

end Verif.H5
