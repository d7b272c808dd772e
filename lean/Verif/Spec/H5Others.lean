import Verif.Spec.H5Dense
/-!
What a whole HDF5 file says: the superblock (II.A), and the objects that can be reached from the
root group through hard links in object headers, symbol tables and dense storage. Written without
the reader; `Info` and `Obj` are only the data that describe an object and a tree of objects.
-/
namespace Verif.H5.Fmt

/-! ### Superblock -/

/-- Versions 0 and 1: versions and parameters of B-trees, flags, the end of the file, the address of
driver information, and the symbol table entry of the root group. -/
structure SuperOld where
  version : Nat
  freeVersion : Nat
  internalK : Nat
  flags : Nat
  indexedK : Nat
  eof : Nat
  driver : Nat
  nameOffset : Nat
  root : Nat
  cacheType : Nat
  scratch : Bytes

/-- II.A. Group leaf nodes have a `K` of four, there is no free-space index. -/
def SuperOld.bytes (s : SuperOld) : Bytes :=
  [0x89, 0x48, 0x44, 0x46, 0x0d, 0x0a, 0x1a, 0x0a] ++ num 1 s.version ++ num 1 s.freeVersion ++ num 1 0 ++ num 1 0 ++
    num 1 0 ++ num 1 8 ++ num 1 8 ++ num 1 0 ++ num 2 4 ++ num 2 s.internalK ++ num 4 s.flags ++
    (if s.version = 1 then num 2 s.indexedK ++ num 2 0 else []) ++
    num 8 0 ++ num 8 undefAddr ++ num 8 s.eof ++ num 8 s.driver ++
    num 8 s.nameOffset ++ num 8 s.root ++ num 4 s.cacheType ++ num 4 0 ++ s.scratch

/-- The numbers fit their fields. -/
def SuperOld.OK (s : SuperOld) : Prop :=
  s.version ≤ 1 ∧ s.freeVersion < 256 ∧ s.internalK < 65536 ∧ s.flags < 2 ^ 32 ∧
    0 < s.indexedK ∧ s.indexedK < 65536 ∧
    s.driver < 2 ^ 64 ∧ s.nameOffset < 2 ^ 64 ∧ s.root < 2 ^ 64 ∧ s.cacheType < 2 ^ 32 ∧ s.scratch.length = 16

/-- II.A, versions 2 and 3, without the checksum. -/
def superNew (version flags ext eof root : Nat) : Bytes :=
  [0x89, 0x48, 0x44, 0x46, 0x0d, 0x0a, 0x1a, 0x0a] ++ num 1 version ++ num 1 8 ++ num 1 8 ++ num 1 flags ++
    num 8 0 ++ num 8 ext ++ num 8 eof ++ num 8 root

/-- The superblock at the start of the file leads to the root group and, perhaps, to an extension. -/
def SuperAt (file : Bytes) (root ext : Nat) : Prop :=
  (∃ s : SuperOld, s.OK ∧ s.eof ≤ file.length ∧ s.root = root ∧ ext = undefAddr ∧ At file 0 s.bytes) ∨
  (∃ version flags eof, (version = 2 ∨ version = 3) ∧ flags < 256 ∧ eof ≤ file.length ∧ root < 2 ^ 64 ∧
    ext < 2 ^ 64 ∧ At file 0 (block (superNew version flags ext eof root)))

/-! ### Objects -/

/-- The message concerns the object alone. -/
def Message.Plain : Message → Bool
  | .link .. | .continuation .. | .symbolTable .. => false
  | _ => true

/-- The attributes in dense storage, if there is any. -/
def AttrsOf (file : Bytes) (p : Option (Nat × Nat)) (as : List Attr) : Prop :=
  match p with
  | none => as = []
  | some (h, b) => if h = undefAddr then as = [] else DenseAttrs file h b as

/-- The links in dense storage, if there are any. -/
def LinksOf (file : Bytes) (p : Option (Nat × Nat)) (ls : List (Bytes × Nat × Nat)) : Prop :=
  match p with
  | none => ls = []
  | some (h, b) => if h = undefAddr then ls = [] else DenseLinks file h b ls

/-- A link: name, address, creation order; objects in symbol tables are taken for groups until a
message says otherwise. -/
structure Member where
  name : Bytes
  addr : Nat
  order : Nat
  group : Bool

/-- Statements about a file. -/
inductive Says
  /-- These messages turn what is known of an object from the first into the second, and lead to
  these children. `version` and `flags` are those of the header. -/
  | messages (version flags : Nat) (ms : List Message) (i i' : Info) (kids : List Obj)
  /-- The same for the header at an address. -/
  | header (addr : Nat) (i i' : Info) (kids : List Obj)
  /-- The object a link leads to. -/
  | object (m : Member) (o : Obj)
  /-- The objects some links lead to. -/
  | objects (ms : List Member) (os : List Obj)

/-- What is true of a file. -/
inductive Holds (file : Bytes) : Says → Prop
  | nil {v fl : Nat} {i : Info} : Holds file (.messages v fl [] i i [])
  | plain {v fl : Nat} {m : Message} {ms : List Message} {i i' : Info} {kids : List Obj}
      (hp : m.Plain = true) (ha : m.Allowed i) (h : Holds file (.messages v fl ms (m.effect i) i' kids)) :
      Holds file (.messages v fl (m :: ms) i i' kids)
  | link {v fl w : Nat} {t : Bool} {o c : Option Nat} {name : Bytes} {addr : Nat} {ms : List Message} {i i' : Info}
      {child : Obj} {kids : List Obj}
      (hc : Holds file (.object ⟨name, addr, o.getD 0, false⟩ child))
      (h : Holds file (.messages v fl ms i i' kids)) :
      Holds file (.messages v fl (.link w t o c name addr :: ms) i i' (child :: kids))
  | symbols {v fl btree heap : Nat} {es : List (Bytes × Nat)} {ms : List Message} {i i' : Info}
      {kids1 kids : List Obj}
      (ht : SymTable file btree heap es)
      (hc : Holds file (.objects (es.map fun e => ⟨e.1, e.2, 0, true⟩) kids1))
      (h : Holds file (.messages v fl ms { i with isGroup := true } i' kids)) :
      Holds file (.messages v fl (.symbolTable btree heap :: ms) i i' (kids1 ++ kids))
  | more2 {fl addr gap : Nat} {tracked : Bool} {more : List (Nat × Nat × Message)} {ms : List Message}
      {i i1 i' : Info} {kids1 kids : List Obj}
      (hfl : fl / 4 % 2 = if tracked then 1 else 0) (hg : gap < 4 + if tracked then 2 else 0)
      (hm : Fits2 more) (hb : (chunk2Body tracked more gap).length < 2 ^ 32)
      (hat : At file addr (chunk2 tracked more gap))
      (h1 : Holds file (.messages 2 fl (more.map (·.2.2)) i i1 kids1))
      (h : Holds file (.messages 2 fl ms i1 i' kids)) :
      Holds file (.messages 2 fl (.continuation addr (chunk2 tracked more gap).length :: ms) i i' (kids1 ++ kids))
  | more1 {addr : Nat} {more : List (Nat × Message)} {ms : List Message}
      {i i1 i' : Info} {kids1 kids : List Obj}
      (hm : Fits1 more) (hne : more ≠ []) (hat : At file addr (frames1 more))
      (h1 : Holds file (.messages 1 0 (more.map (·.2)) i i1 kids1))
      (h : Holds file (.messages 1 0 ms i1 i' kids)) :
      Holds file (.messages 1 0 (.continuation addr (frames1 more).length :: ms) i i' (kids1 ++ kids))
  | header2 {addr : Nat} {hd : Head2} {ms : List (Nat × Nat × Message)} {i i' : Info} {kids : List Obj}
      (hh : hd.OK) (hm : Fits2 ms) (hsize : (frames2 hd.tracked ms).length + hd.gap < 256 ^ 2 ^ hd.w)
      (hb : (header2Body hd ms).length < 2 ^ 32) (h0 : 0 < addr) (hat : At file addr (header2 hd ms))
      (h : Holds file (.messages 2 hd.flags (ms.map (·.2.2)) i i' kids)) :
      Holds file (.header addr i i' kids)
  | header1 {addr refs : Nat} {ms : List (Nat × Message)} {i i' : Info} {kids : List Obj}
      (hm : Fits1 ms) (hn : ms.length < 65536) (hr : refs < 2 ^ 32) (hsize : (frames1 ms).length < 2 ^ 32)
      (h0 : 0 < addr) (hat : At file addr (header1 refs ms))
      (h : Holds file (.messages 1 0 (ms.map (·.2)) i i' kids)) :
      Holds file (.header addr i i' kids)
  | object {m : Member} {i : Info} {as : List Attr} {ls : List (Bytes × Nat × Nat)} {kids1 kids2 : List Obj}
      (hh : Holds file (.header m.addr
        { name := m.name, addr := m.addr, creationOrder := m.order, isGroup := m.group } i kids1))
      (ha : AttrsOf file i.attr as) (hl : LinksOf file i.link ls)
      (hk : Holds file (.objects (ls.map fun l => ⟨l.1, l.2.1, l.2.2, false⟩) kids2))
      (hn : ((kids1 ++ kids2).map fun k => k.info.name).Nodup) :
      Holds file (.object m (.mk { i with attrs := i.attrs ++ as } (kids1 ++ kids2)))
  | none : Holds file (.objects [] [])
  | cons {m : Member} {ms : List Member} {o : Obj} {os : List Obj} (h : Holds file (.object m o))
      (hs : Holds file (.objects ms os)) : Holds file (.objects (m :: ms) (o :: os))

mutual
/-- The addresses of an object and of those below it. -/
def addrsBelow : Obj → List Nat
  | .mk i ks => i.addr :: allAddrs ks
/-- The addresses of some objects and of those below them. -/
def allAddrs : List Obj → List Nat
  | [] => []
  | o :: os => addrsBelow o ++ allAddrs os
end

/-- The file holds this tree of objects. The extension of the superblock, if there is one, has no
links. No object below the root group is linked twice. -/
def FileHolds (file : Bytes) (o : Obj) : Prop :=
  ∃ (root ext : Nat) (i : Info) (as : List Attr) (ls : List (Bytes × Nat × Nat)) (kids1 kids2 : List Obj),
    SuperAt file root ext ∧ root ≠ undefAddr ∧
    (ext = undefAddr ∨ ∃ e, Holds file (.header ext { addr := ext } e [])) ∧
    Holds file (.header root { addr := root } i kids1) ∧
    AttrsOf file i.attr as ∧ LinksOf file i.link ls ∧
    Holds file (.objects (ls.map fun l => ⟨l.1, l.2.1, l.2.2, false⟩) kids2) ∧
    ((kids1 ++ kids2).map fun k => k.info.name).Nodup ∧ (allAddrs (kids1 ++ kids2)).Nodup ∧
    o = .mk { i with isGroup := true, attrs := i.attrs ++ as } (kids1 ++ kids2)

end Verif.H5.Fmt
