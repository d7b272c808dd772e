import Verif.Lemmas.H5Header
/-!
C51: datatypes and attributes stored by other HDF5 programs. `Spec/H5DType` describes the bytes of a
datatype as the file format specification does.
-/
namespace Verif.H5
open Fmt

/-- A datatype message of the format, of any nesting and any depth, is read as the type it describes,
and the reader ends up behind its last byte. Missing for the whole claim: the time class, compounds
with a size of three bytes in version 3, more than 255 members, and opaque types that are not the
last thing in the message; the first two are refuted below. -/
theorem C51_datatype_partial (t : DType) (last : Bool) (q : Nat) (rest : Bytes) (h : t.Readable last)
    (hr : last = true → rest = []) :
    parseDatatype ⟨q, t.bytes ++ rest⟩ = .ok (t.dt, ⟨q + t.bytes.length, rest⟩) :=
  parseDatatype_fmt t last h q rest hr

/-- An attribute message of any of the three versions gives the name, the shape, the type and the
data of the attribute. -/
theorem C51_attribute_partial (v : Nat) (name data : Bytes) (t : DType) (sp : Space) (value : AttrData)
    (hv : v = 1 ∨ v = 2 ∨ v = 3)
    (hn : (0 : UInt8) ∉ name) (hnl : name.length < 65535) (ht : t.Readable true)
    (htl : t.bytes.length < 65536) (hs : sp.OK) (hd : attrData data t.dt = .ok value) :
    readAttribute ⟨0, attr v name t.bytes sp.bytes data⟩ =
      .ok (⟨name, sp.dims, t.dt, value⟩, ⟨(attr v name t.bytes sp.bytes data).length, []⟩) := by
  rw [fmt_attr v name data t sp hv hn hnl ht htl hs, hd]

/-- A compound of 70000 bytes in version 3 of the format: the offsets of its members take three
bytes, and the file is refused. -/
theorem C51_negation_wide :
    parseDatatype ⟨0, (DType.compound 3 70000 [(ascii "a", 0, []), (ascii "b", 69999, [])]
      [.fixed 1 1 false false, .fixed 1 1 false false]).bytes⟩ = .err .assertFail := by
  simp only [DType.bytes, membersBytes]
  rfl

/-- A datatype of the time class, with its precision of 32 bits: the process ends. -/
theorem C51_negation_time (walk : Task → St → Res St) (st : St) :
    msgSub 2 10 (handle walk 2 0 3 10 st) ⟨0, dtHead 2 1 0 4 ++ num 2 32⟩ = .panic := by
  rfl

/-! ### Instances -/

/-- A compound of version 3 with an array of enumerations, a sequence of big-endian numbers, a string
and a tagged blob. -/
def exNested : DType :=
  .compound 3 300 [(ascii "e", 0, []), (ascii "seq", 24, []), (ascii "name", 40, []), (ascii "blob", 60, [])]
    [.array 3 24 [2, 3] [0, 0] (.enum 3 1 4 true false [ascii "lo", ascii "hi"] [1, 2 ^ 32 - 1]),
      .vlenSeq 1 16 0 (.fixed 1 2 false true), .str 20 1 1, .opaque 1 240 (ascii "jpeg")]

theorem exNested_readable : exNested.Readable true := by
  simp [exNested, DType.Readable, TypesReadable, IntSize, MemberOK, offWidth]
  decide

example (q : Nat) : parseDatatype ⟨q, exNested.bytes⟩ =
    .ok (.compound 300 [(ascii "e", 0, none), (ascii "seq", 24, none), (ascii "name", 40, none),
        (ascii "blob", 60, none)]
      [.array 24 [2, 3] (.enum 4 (.fixed 4 true false) [ascii "lo", ascii "hi"] [1, 2 ^ 32 - 1]),
        .vlen 16 false (.fixed 2 false true), .str 20, .opaque 240 true],
      ⟨q + exNested.bytes.length, []⟩) := by
  have := C51_datatype_partial exNested true q [] exNested_readable (fun _ => rfl)
  rw [List.append_nil] at this
  rw [this]
  simp [exNested, DType.dt, typesDt]
  decide

/-- In an attribute of version 1 with two elements. -/
example : readAttribute ⟨0, attr 1 (ascii "table") exNested.bytes (Space.v1 [2] none).bytes
      (List.replicate 600 7)⟩ =
    .ok (⟨ascii "table", [2], exNested.dt, .df (List.replicate 600 7)⟩,
      ⟨(attr 1 (ascii "table") exNested.bytes (Space.v1 [2] none).bytes (List.replicate 600 7)).length, []⟩) :=
  C51_attribute_partial 1 _ _ exNested (.v1 [2] none) _ (.inl rfl) (by decide) (by decide) exNested_readable
    (by decide +kernel) (by simp [Space.OK, ShapeOK]) (by
      rw [exNested, DType.dt, attrData, if_pos (by rw [List.length_replicate]; omega)])

end Verif.H5
