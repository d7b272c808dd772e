import Verif.Spec.H5Format
import Verif.Spec.H5DType
import Verif.Spec.Lookup3
import Verif.Model.H5Object
/-!
What an object header says, message by message, and how headers of versions 1 and 2 are laid out in
a file (HDF5 file format specification, sections IV.A.1 and IV.A.2).
-/
namespace Verif.H5.Fmt

/-- A shape with, perhaps, a maximum shape of the same rank. -/
def ShapeOK (dims : List Nat) (max : Option (List Nat)) : Prop :=
  dims.length ≤ 255 ∧ (∀ d ∈ dims, d < 2 ^ 64) ∧
    ∀ m, max = some m → m.length = dims.length ∧ ∀ d ∈ m, d < 2 ^ 64

/-- A dataspace in one of its two versions. -/
inductive Space
  | v1 (dims : List Nat) (max : Option (List Nat))
  | v2 (ty : Nat) (dims : List Nat) (max : Option (List Nat))

/-- The bytes of a dataspace message. -/
def Space.bytes : Space → Bytes
  | .v1 d m => dataspace1 d m
  | .v2 t d m => dataspace2 t d m

/-- The shape. -/
def Space.dims : Space → List Nat
  | .v1 d _ | .v2 _ d _ => d

/-- The numbers fit their fields. -/
def Space.OK : Space → Prop
  | .v1 d m => ShapeOK d m
  | .v2 t d m => t ≤ 2 ∧ ShapeOK d m

/-- The messages considered, in all their variants. -/
inductive Message
  | nil (data : Bytes)
  | dataspace (s : Space)
  | linkInfo (maxIndex byOrder : Option Nat) (heap btree : Nat)
  | datatype (t : DType)
  | fillOld (b : Bytes)
  | fill1 (alloc write : Nat) (v : Fill)
  | fill2 (alloc write : Nat) (v : Fill)
  | fill3 (alloc write : Nat) (v : Fill)
  | link (w : Nat) (typeStored : Bool) (order charset : Option Nat) (name : Bytes) (addr : Nat)
  | compact (version : Nat) (data : Bytes)
  | contiguous (version addr size : Nat)
  | chunked (addr : Nat) (chunk : List Nat) (elemSize : Nat)
  | groupInfo (phase est : Option (Nat × Nat))
  | pipeline1 (fs : List Filter)
  | pipeline2 (fs : List Filter)
  | attr (version : Nat) (name : Bytes) (t : DType) (s : Space) (data : Bytes) (value : AttrData)
  | comment (text : Bytes)
  | modifiedOld (date : Bytes)
  | symbolTable (btree heap : Nat)
  | attributeInfo (maxIndex byOrder : Option Nat) (heap btree : Nat)
  | modified (seconds : Nat)
  | refCount (n : Nat)
  | continuation (offset size : Nat)

/-- The number of the message type. -/
def Message.ty : Message → Nat
  | .nil _ => 0
  | .dataspace _ => 1
  | .linkInfo .. => 2
  | .datatype _ => 3
  | .fillOld _ => 4
  | .fill1 .. | .fill2 .. | .fill3 .. => 5
  | .link .. => 6
  | .compact .. | .contiguous .. | .chunked .. => 8
  | .groupInfo .. => 10
  | .pipeline1 _ | .pipeline2 _ => 11
  | .attr .. => 12
  | .comment _ => 13
  | .modifiedOld _ => 14
  | .symbolTable .. => 17
  | .modified _ => 18
  | .attributeInfo .. => 21
  | .refCount _ => 22
  | .continuation .. => 16

/-- The bytes of the message. -/
def Message.bytes : Message → Bytes
  | .nil b => b
  | .dataspace s => s.bytes
  | .linkInfo m b h t => Fmt.linkInfo m b h t
  | .datatype t => t.bytes
  | .fillOld b => num 4 b.length ++ b
  | .fill1 a w v => Fmt.fill1 a w v
  | .fill2 a w v => Fmt.fill2 a w v
  | .fill3 a w v => Fmt.fill3 a w v
  | .link w t o c n a => hardLink w t o c n a
  | .compact v d => Fmt.compact v d
  | .contiguous v a s => Fmt.contiguous v a s
  | .chunked a c e => Fmt.chunked a c e
  | .groupInfo p e => Fmt.groupInfo p e
  | .pipeline1 fs => Fmt.pipeline1 fs
  | .pipeline2 fs => Fmt.pipeline2 fs
  | .attr v n t s x _ => Fmt.attr v n t.bytes s.bytes x
  | .comment t => t ++ [0]
  | .modifiedOld d => d ++ [0, 0]
  | .symbolTable b h => num 8 b ++ num 8 h
  | .attributeInfo m b h t => Fmt.attributeInfo m b h t
  | .modified s => num 1 1 ++ num 1 0 ++ num 1 0 ++ num 1 0 ++ num 4 s
  | .refCount n => num 1 0 ++ num 4 n
  | .continuation o s => num 8 o ++ num 8 s

/-- A filter the reader knows (deflate, shuffle, Fletcher-32) and that fits the fields. -/
def Filter.Known (f : Filter) : Prop :=
  (f.id = 1 ∨ f.id = 2 ∨ f.id = 3) ∧ f.name.length < 65536 ∧ f.name.length % 8 = 0 ∧
    f.cdv.length < 65536 ∧ ∀ c ∈ f.cdv, c < 2 ^ 32

/-- Storage allocation and fill times of the format; the value fits its length field. -/
def FillOK (alloc write : Nat) (v : Fill) : Prop :=
  1 ≤ alloc ∧ alloc ≤ 3 ∧ write ≤ 2 ∧ ∀ b, v = .value b → b.length < 2 ^ 32

/-- The message is well formed: its numbers fit their fields. -/
def Message.OK : Message → Prop
  | .nil _ => True
  | .dataspace s => s.OK
  | .linkInfo m b h t => (∀ x, m = some x → x < 2 ^ 64) ∧ (∀ x, b = some x → x < 2 ^ 64) ∧
      h < 2 ^ 64 ∧ t < 2 ^ 64
  | .datatype t => t.Readable true
  | .fillOld b => b.length < 2 ^ 32
  | .fill1 a w v => FillOK a w v ∧ v ≠ .undefined
  | .fill2 a w v => FillOK a w v ∧ v ≠ .undefined
  | .fill3 a w v => FillOK a w v
  | .link w _ o c n a => w ≤ 3 ∧ (∀ x, o = some x → x < 2 ^ 64) ∧ (∀ x, c = some x → x ≤ 1) ∧
      n.length < 256 ^ 2 ^ w ∧ a < 2 ^ 64
  | .compact v d => (v = 3 ∨ v = 4) ∧ d.length < 65536
  | .contiguous v a s => (v = 3 ∨ v = 4) ∧ a < 2 ^ 64 ∧ s < 2 ^ 64
  | .chunked a c e => a < 2 ^ 64 ∧ c ≠ [] ∧ c.length < 255 ∧ (∀ x ∈ c, x < 2 ^ 32) ∧ e < 2 ^ 32
  | .groupInfo p e => (∀ x, p = some x → x.1 < 65536 ∧ x.2 < 65536) ∧
      ∀ x, e = some x → x.1 < 65536 ∧ x.2 < 65536
  | .pipeline1 fs => fs.length < 256 ∧ ∀ f ∈ fs, f.Known
  | .pipeline2 fs => fs.length < 256 ∧ ∀ f ∈ fs, f.Known
  | .attr v n t s x value => (v = 1 ∨ v = 2 ∨ v = 3) ∧ (0 : UInt8) ∉ n ∧ n.length < 65535 ∧
      t.Readable true ∧ t.bytes.length < 65536 ∧ s.OK ∧ attrData x t.dt = .ok value
  | .comment t => (0 : UInt8) ∉ t
  | .modifiedOld d => d.length = 14
  | .symbolTable b h => b < 2 ^ 64 ∧ h < 2 ^ 64
  | .attributeInfo m b h t => (∀ x, m = some x → x < 2 ^ 16) ∧ (∀ x, b = some x → x < 2 ^ 64) ∧
      h < 2 ^ 64 ∧ t < 2 ^ 64
  | .modified s => s < 2 ^ 32
  | .refCount n => n < 2 ^ 32
  | .continuation o s => o < 2 ^ 64 ∧ s < 2 ^ 64

/-- What the message says about the object. -/
def Message.effect : Message → Info → Info
  | .nil _, i | .modified _, i | .refCount _, i | .link .., i | .continuation .., i
  | .comment _, i | .modifiedOld _, i => i
  | .symbolTable .., i => { i with isGroup := true }
  | .dataspace s, i => { i with isGroup := false, dims := some s.dims }
  | .linkInfo _ _ h t, i => { i with isGroup := true, link := some (h, t) }
  | .datatype t, i => { i with isGroup := false, dt := some t.dt }
  | .fillOld b, i => { i with isGroup := false, fillValueOld := some b }
  | .fill1 _ _ v, i | .fill2 _ _ v, i | .fill3 _ _ v, i =>
    match v with
    | .undefined => { i with isGroup := false, fillValue := some .undefined }
    | .value (b :: bs) => { i with isGroup := false, fillValue := some (.value (b :: bs)) }
    | _ => { i with isGroup := false }
  | .compact _ d, i => { i with isGroup := false, blocks := i.blocks ++ [.raw d] }
  | .contiguous _ a s, i =>
    if a = undefAddr then { i with isGroup := false }
    else { i with isGroup := false, blocks := i.blocks ++ [.at a s] }
  | .chunked a c e, i =>
    if a = undefAddr then { i with isGroup := false, layout := c }
    else { i with
      isGroup := false
      layout := c
      chunk := some (a, e, c.foldl (fun x y => x * y % 2 ^ 64) 1, c.length + 1) }
  | .groupInfo .., i => { i with isGroup := true }
  | .pipeline1 fs, i | .pipeline2 fs, i =>
    { i with filters := i.filters ++ fs.map fun f => (f.id, f.cdv) }
  | .attr _ n t s _ v, i => { i with attrs := i.attrs ++ [⟨n, s.dims, t.dt, v⟩] }
  | .attributeInfo _ _ h t, i => { i with attr := some (h, t) }

/-- Nothing is said twice that may be said once; the type comes before the layout. -/
def Message.Allowed : Message → Info → Prop
  | .linkInfo .., i => i.link = none
  | .attributeInfo .., i => i.attr = none
  | .datatype _, i => i.layout = []
  | _, _ => True

/-- A message read into an object: a link or a symbol table leads to other objects, a continuation to
more messages of this object, all else concerns the object itself. `version` and `flags` are those of the header,
which a continuation inherits. -/
def Message.run (walk : Task → St → Res St) (version flags : Nat) (m : Message) (st : St) : Res St :=
  match m with
  | .link _ _ o _ n a => addLink walk n a (o.getD 0) st
  | .continuation o s => walk (.cont o s version flags) st
  | .symbolTable b h => walk (.symtab b h) { st with info := { st.info with isGroup := true } }
  | m => .ok { st with info := m.effect st.info }

/-- All messages of a header, in order. -/
def runMessages (walk : Task → St → Res St) (version flags : Nat) : List Message → St → Res St
  | [], st => .ok st
  | m :: ms, st => m.run walk version flags st >>= runMessages walk version flags ms

/-- Every message is allowed when its turn comes. -/
def AllAllowed (walk : Task → St → Res St) (version flags : Nat) : List Message → St → Prop
  | [], _ => True
  | m :: ms, st => m.Allowed st.info ∧
    ∀ st', m.run walk version flags st = .ok st' → AllAllowed walk version flags ms st'

/-- One message of a version 2 header, with its flags and, if they are tracked, creation order. -/
def frame2 (order : Option Nat) (flags : Nat) (m : Message) : Bytes :=
  num 1 m.ty ++ num 2 m.bytes.length ++ num 1 flags ++ (order.map (num 2)).getD [] ++ m.bytes

/-- One message of a version 1 header; the message is padded to a multiple of eight bytes. -/
def frame1 (flags : Nat) (m : Message) : Bytes :=
  let pad := (8 - m.bytes.length % 8) % 8
  num 2 m.ty ++ num 2 (m.bytes.length + pad) ++ num 1 flags ++ num 3 0 ++ m.bytes ++
    List.replicate pad 0

/-- The messages of a version 2 header: flags and creation order go with each message. -/
def frames2 (tracked : Bool) (ms : List (Nat × Nat × Message)) : Bytes :=
  ms.flatMap fun x => frame2 (if tracked then some x.2.1 else none) x.1 x.2.2

/-- The optional parts of a version 2 header: the size of the messages is stored in `2 ^ w` bytes;
the creation order of attributes may be tracked and indexed; `times` (four times of four bytes) and
`phase` (two numbers of two bytes) may be stored; a gap of zeros too small for another message may
follow the messages. -/
structure Head2 where
  w : Nat
  tracked : Bool
  indexed : Bool
  times : Option Bytes
  phase : Option Bytes
  gap : Nat

/-- The optional parts have the sizes the format asks for. -/
def Head2.OK (h : Head2) : Prop :=
  h.w ≤ 3 ∧ (∀ t, h.times = some t → t.length = 16) ∧ (∀ t, h.phase = some t → t.length = 4) ∧
    h.gap < 4 + if h.tracked then 2 else 0

/-- The flags of a version 2 header. -/
def Head2.flags (h : Head2) : Nat :=
  h.w + bit 2 h.tracked + bit 3 h.indexed + bit 4 h.phase.isSome + bit 5 h.times.isSome

/-- IV.A.1.b, without the checksum. -/
def header2Body (h : Head2) (ms : List (Nat × Nat × Message)) : Bytes :=
  [0x4f, 0x48, 0x44, 0x52] ++ num 1 2 ++ num 1 h.flags ++ h.times.getD [] ++ h.phase.getD [] ++
    num (2 ^ h.w) ((frames2 h.tracked ms).length + h.gap) ++
    frames2 h.tracked ms ++ List.replicate h.gap 0

/-- IV.A.1.b: the header with its checksum. -/
def header2 (h : Head2) (ms : List (Nat × Nat × Message)) : Bytes :=
  header2Body h ms ++ num 4 (Lookup3.hash (header2Body h ms)).toNat

/-- IV.A.1.b: a continuation block of a version 2 header. -/
def chunk2Body (tracked : Bool) (ms : List (Nat × Nat × Message)) (gap : Nat) : Bytes :=
  [0x4f, 0x43, 0x48, 0x4b] ++ frames2 tracked ms ++ List.replicate gap 0

/-- The continuation block with its checksum. -/
def chunk2 (tracked : Bool) (ms : List (Nat × Nat × Message)) (gap : Nat) : Bytes :=
  chunk2Body tracked ms gap ++ num 4 (Lookup3.hash (chunk2Body tracked ms gap)).toNat

/-- The messages of a version 1 header; a continuation block of version 1 is nothing else. -/
def frames1 (ms : List (Nat × Message)) : Bytes := ms.flatMap fun x => frame1 x.1 x.2

/-- IV.A.1.a: a version 1 header. -/
def header1 (refs : Nat) (ms : List (Nat × Message)) : Bytes :=
  num 1 1 ++ num 1 0 ++ num 2 ms.length ++ num 4 refs ++
    num 4 (frames1 ms).length ++ num 4 0 ++ frames1 ms

/-- Flags, creation orders and sizes fit their fields; the messages are well formed. -/
def Fits2 (ms : List (Nat × Nat × Message)) : Prop :=
  ∀ x ∈ ms, x.1 < 256 ∧ x.2.1 < 65536 ∧ x.2.2.OK ∧ x.2.2.bytes.length < 65536

/-- Messages that may be followed by padding: all but those whose last part extends to the end of
the message. -/
def Message.Tolerant : Message → Prop
  | .datatype t => t.Readable false
  | .attr .. => False
  | _ => True

/-- The same for version 1, where messages are padded to a multiple of eight bytes. -/
def Fits1 (ms : List (Nat × Message)) : Prop :=
  ∀ x ∈ ms, x.1 < 256 ∧ x.2.OK ∧ x.2.bytes.length < 65528 ∧ (x.2.bytes.length % 8 = 0 ∨ x.2.Tolerant)

end Verif.H5.Fmt
