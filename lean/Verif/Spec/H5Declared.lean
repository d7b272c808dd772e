import Verif.Spec.H5Typed
import Verif.Model.H5TypedApi
import Verif.Model.H5Names
/-!
Specification for values read from any HDF5 file, well-formed or not: they have the shape and the type
that the file declares, and reading does not change what is read later.
-/
namespace Verif.H5

/-- `Declared exact dt dims v`: `v` is an array with dimensions `dims` of elements of the stored type
`dt`; a Go slice for each dimension, with as many elements as the dimension is long. If `exact`, the
Go types of the slices are the ones for `dt` (`goTy`), unless sequences come in: the Go types of
empty slices in sequences are not always the ones they should be (C55). A type for times has no values
in Go. -/
inductive Declared : Bool → DT → List Nat → TVal → Prop
  | num (x be : Bool) (k : Kind) (bits : Nat) : bits < 256 ^ k.size → Declared x (storedNum be k) [] (.num k bits)
  | ref (x : Bool) (n a : Nat) : a < 2 ^ 64 → Declared x (.ref n) [] (.num .u64 a)
  | time (x : Bool) (n : Nat) (dims : List Nat) : Declared x (.time n) dims .nil
  | str (x : Bool) (n : Nat) (s : Bytes) : s.length ≤ n → 0 ∉ s → Declared x (.str n) [] (.str s)
  | chars (x : Bool) (d : Nat) (s : Bytes) : s.length ≤ d → 0 ∉ s → Declared x (.str 1) [d] (.str s)
  | blob (x tagged : Bool) (b : Bytes) : Declared x (.opaque b.length tagged) [] (.opaque b)
  | enum (x be : Bool) (k : Kind) (len : Nat) (ns : List Bytes) (vs dims : List Nat) (v : TVal) : k.isFloat = false →
      Declared x (storedNum be k) dims v → Declared x (.enum len (storedNum be k) ns vs) dims (.enum v ns (vs.map (.num k)))
  | vlenStr (x : Bool) (len : Nat) (e : DT) (s : Bytes) : 0 ∉ s → Declared x (.vlen len true e) [] (.str s)
  | seq (x : Bool) (len : Nat) (e : DT) (t : TTy) (xs : List TVal) : (∀ y ∈ xs, Declared false e [] y) →
      Declared x (.vlen len false e) [] (.slice t xs)
  | compound (x : Bool) (len : Nat) (ms : List (Bytes × Nat × Option (List Nat))) (ts : List DT) (vs : List TVal) :
      vs.length = ts.length →
      (∀ (i : Nat) (m : Bytes × Nat × Option (List Nat)) (t : DT) (v : TVal), ms[i]? = some m → ts[i]? = some t →
        vs[i]? = some v → Declared x t (m.2.2.getD []) v) →
      Declared x (.compound len ms ts) [] (.compound (ms.map (·.1)) vs)
  | array (x : Bool) (len : Nat) (ad : List Nat) (e : DT) (dims : List Nat) (v : TVal) :
      Declared x e (dims ++ ad) v → Declared x (.array len ad e) dims v
  | rows (x : Bool) (dt : DT) (d : Nat) (ds : List Nat) (t : TTy) (xs : List TVal) :
      (ByElement dt ∨ dt = .str 1 ∧ ds ≠ []) → xs.length = d → (∀ y ∈ xs, Declared x dt ds y) →
      (x = true → ByElement dt → ¬ IsSeq dt → t = goTy dt ds) → Declared x dt (d :: ds) (.slice t xs)

/-- Types that do not change when a value is read: inside of compounds and sequences, an array type is
not combined with dimensions of its own. (netCDF-4 files do not do that: the members of compounds have
no dimensions beside those of their type.) -/
def Keeps : DT → Prop
  | .compound _ ms ts => ms.length = ts.length ∧ (∀ x ∈ ms.zip ts, Steady x.2 (x.1.2.2.getD [])) ∧ KeepsAll ts
  | .vlen _ false e => Steady e [] ∧ Keeps e
  | .array _ _ e => Keeps e
  | _ => True
where
  KeepsAll : List DT → Prop
  | [] => True
  | t :: ts => Keeps t ∧ KeepsAll ts

/-- `UnwrappedT w v`: `v` is the attribute value for the value `w` with its dimensions: an array with one
element is that element, and so is an array of one member of an enumeration; a compound with one member
is that field. -/
inductive UnwrappedT : TVal → TVal → Prop
  | one (t : TTy) (x : TVal) : UnwrappedT (.slice t [x]) x
  | field (n : Bytes) (x : TVal) : UnwrappedT (.compound [n] [x]) (.field n x)
  | enum (w v : TVal) (ns : List Bytes) (ms : List TVal) : UnwrappedT w v → UnwrappedT (.enum w ns ms) (.enum v ns ms)
  | other (w : TVal) : (∀ t x, w ≠ .slice t [x]) → (∀ n x, w ≠ .compound [n] [x]) → (∀ x ns ms, w ≠ .enum x ns ms) →
      UnwrappedT w w

/-- The value `v` is one for the attribute `a`: of the type and the dimensions that are stored with it. A
string with a fixed length is kept as it is in the message, without dimensions. -/
def AttrDeclared (a : Attr) (v : TVal) : Prop :=
  ∃ w, UnwrappedT w v ∧ (Declared true a.dt a.dims w ∨ ∃ s, a.data = .value s ∧ w = .str s)

/-- The attributes that netCDF-4 keeps for itself. -/
def reserved : List Bytes :=
  [ascii "_Netcdf4Dimid", ascii "_Netcdf4Coordinates", ascii "DIMENSION_LIST", ascii "NAME", ascii "REFERENCE_LIST",
    ascii "CLASS", ascii "_NCProperties"]

/-- A map has the attributes that are stored, but not those that netCDF-4 keeps for itself, with values of
the types that are stored. -/
def AttrsDeclared (stored : List Attr) (m : GoMap TVal) : Prop :=
  (∀ key, key ∈ m.keys ↔ (∃ a ∈ stored, a.name = key) ∧ key ∉ reserved) ∧
  ∀ x ∈ m, ∃ a ∈ stored, a.name = x.1 ∧ AttrDeclared a x.2

/-- A call that reads from the variable `name` of a group: `GetVariable`, or `GetSlice` of what
`GetVarGetter` returns. -/
inductive AnyRead
  | whole (G : Group) (name : Bytes)
  | slice (G : Group) (name : Bytes) (b e : Int)

/-- The variable it reads from. -/
def AnyRead.var : AnyRead → Option Obj
  | .whole G name => G.findVariable name
  | .slice G name _ _ => G.findVariable name

/-- The group it is called on. -/
def AnyRead.group : AnyRead → Group
  | .whole G _ => G
  | .slice G _ _ _ => G

/-- It asks for a part. -/
def AnyRead.isSlice : AnyRead → Bool
  | .whole _ _ => false
  | .slice _ _ _ _ => true

/-- What a call leaves behind in the open file. -/
def AnyRead.run (ord : List Nat → List NamedType → List NamedType) (s : Src) (t : TTab) : AnyRead → TTab
  | .whole G name => (G.getVariableT (G.cast ord) s t name).1
  | .slice G name b e =>
    match G.findVariable name with
    | none => t
    | some k => (k.getSliceT (G.cast ord) s t b e).1

/-- What a history of calls leaves behind. -/
def readAny (ord : List Nat → List NamedType → List NamedType) (s : Src) (cs : List AnyRead) : TTab :=
  cs.foldl (AnyRead.run ord s) []

end Verif.H5
