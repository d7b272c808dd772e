import Verif.Spec.H5Array
import Verif.Model.H5Typed
/-!
What the bytes of an element of any stored type mean, and the Go values for it. Written after section
IV.A.2.d of the HDF5 file format specification: a compound has its members at their offsets, an array
its elements one after the other, a sequence its elements in the global heap.
-/
namespace Verif.H5

/-- One more slice for each dimension. -/
def sliceTy (base : TTy) : List Nat → TTy
  | [] => base
  | _ :: ds => .slice (sliceTy base ds)

/-- The kind of a number. -/
def kindTy (dt : DT) : TTy :=
  match numKind dt with
  | some (k, _) => .num k
  | none => .nil

/-- The Go type for the elements of an array with dimensions `dims` of a stored type: slices of the
type for one element. Arrays add their dimensions. An enumeration has all its numbers in one value,
and a line of single characters is one string. -/
def goTy : DT → List Nat → TTy
  | .str len, dims => if len = 1 then (match dims with | [_] => .str | ds => sliceTy .str ds) else sliceTy .str dims
  | .opaque _ _, dims => sliceTy .opaque dims
  | .compound _ _ _, dims => sliceTy .compound dims
  | .ref _, dims => sliceTy (.num .u64) dims
  | .enum _ _ _ _, _ => .enum
  | .vlen _ true _, dims => sliceTy .str dims
  | .vlen _ false e, dims => sliceTy (.slice (goTy e [])) dims
  | .array _ ad e, dims => goTy e (dims ++ ad)
  | dt, dims => sliceTy (kindTy dt) dims

/-- The types whose arrays are slices of the values of their elements. -/
def ByElement : DT → Prop
  | .enum _ _ _ _ | .array _ _ _ | .time _ => False
  | .str len => len ≠ 1
  | .fixed len _ _ => len = 1 ∨ len = 2 ∨ len = 4 ∨ len = 8
  | .float len _ => len = 4 ∨ len = 8
  | _ => True

/-- The types with values that are neither slices nor named slices: an empty sequence of them has the
Go type it should have. -/
inductive Single : DT → Prop
  | num (be : Bool) (k : Kind) : Single (storedNum be k)
  | str (n : Nat) : Single (.str n)
  | ref : Single (.ref 8)
  | enum (be : Bool) (k : Kind) (ns : List Bytes) (vs : List Nat) : k.isFloat = false →
      Single (.enum k.size (storedNum be k) ns vs)
  | vlenStr (e : DT) : Single (.vlen 16 true e)

/-- `Shown heap dt dims b v`: the bytes `b` are an array of elements of type `dt` with dimensions
`dims`, and `v` is the Go value for it. `heap` is the global heap. -/
inductive Shown (heap : HeapFn) : DT → List Nat → Bytes → TVal → Prop
  | num (be : Bool) (k : Kind) (bits : Nat) : bits < 256 ^ k.size →
      Shown heap (storedNum be k) [] (numBytes be k bits) (.num k bits)
  | str (n : Nat) (s : Bytes) : s.length ≤ n → 0 ∉ s →
      Shown heap (.str n) [] (s ++ List.replicate (n - s.length) 0) (.str s)
  | chars (d : Nat) (s : Bytes) : s.length ≤ d → 0 ∉ s →
      Shown heap (.str 1) [d] (s ++ List.replicate (d - s.length) 0) (.str s)
  | blob (tagged : Bool) (b : Bytes) : Shown heap (.opaque b.length tagged) [] b (.opaque b)
  | ref (a : Nat) : a < 2 ^ 64 → Shown heap (.ref 8) [] (leEnc 8 a) (.num .u64 a)
  | enum (be : Bool) (k : Kind) (ns : List Bytes) (vs dims : List Nat) (b : Bytes) (v : TVal) : k.isFloat = false →
      Shown heap (storedNum be k) dims b v →
      Shown heap (.enum k.size (storedNum be k) ns vs) dims b (.enum v ns (vs.map (.num k)))
  | vlenStr (e : DT) (addr idx : Nat) (s : Bytes) : 0 < s.length → s.length < 2 ^ 32 → addr < 2 ^ 64 →
      idx < 2 ^ 32 → 0 ∉ s → heap addr idx = .ok (some s) →
      Shown heap (.vlen 16 true e) [] (leEnc 4 s.length ++ (leEnc 8 addr ++ leEnc 4 idx)) (.str s)
  | emptyStr (e : DT) (addr idx : Nat) : addr < 2 ^ 64 → idx < 2 ^ 32 →
      Shown heap (.vlen 16 true e) [] (leEnc 4 0 ++ (leEnc 8 addr ++ leEnc 4 idx)) (.str [])
  | seq (e : DT) (addr idx n : Nat) (b : Nat → Bytes) (v : Nat → TVal) (rest : Bytes) : 0 < n → n < 2 ^ 32 →
      addr < 2 ^ 64 → idx < 2 ^ 32 → heap addr idx = .ok (some ((List.range n).flatMap b ++ rest)) →
      (∀ i, i < n → Shown heap e [] (b i) (v i)) →
      Shown heap (.vlen 16 false e) [] (leEnc 4 n ++ (leEnc 8 addr ++ leEnc 4 idx))
        (.slice (goTy e []) ((List.range n).map v))
  | emptySeq (e : DT) (addr idx : Nat) : addr < 2 ^ 64 → idx < 2 ^ 32 → Single e →
      Shown heap (.vlen 16 false e) [] (leEnc 4 0 ++ (leEnc 8 addr ++ leEnc 4 idx)) (.slice (goTy e []) [])
  | compound (ms : List (Bytes × Nat × Option (List Nat))) (ts : List DT) (vs : List TVal) (b : Bytes) :
      ms.length = ts.length → vs.length = ts.length →
      (∀ (i : Nat) (m : Bytes × Nat × Option (List Nat)) (t : DT), ms[i]? = some m → ts[i]? = some t →
        m.2.1 + prod (m.2.2.getD []) * t.len ≤ b.length) →
      (∀ (i : Nat) (m : Bytes × Nat × Option (List Nat)) (t : DT) (v : TVal), ms[i]? = some m → ts[i]? = some t →
        vs[i]? = some v →
          Shown heap t (m.2.2.getD []) ((b.drop m.2.1).take (prod (m.2.2.getD []) * t.len)) v) →
      Shown heap (.compound b.length ms ts) [] b (.compound (ms.map (·.1)) vs)
  | array (len : Nat) (ad : List Nat) (e : DT) (dims : List Nat) (b : Bytes) (v : TVal) :
      len = prod ad * e.len → (∀ d ∈ ad, 0 < d) → Shown heap e (dims ++ ad) b v →
      Shown heap (.array len ad e) dims b v
  | rows (dt : DT) (d : Nat) (ds : List Nat) (b : Nat → Bytes) (v : Nat → TVal) : ByElement dt →
      ((∃ n e, dt = .vlen n false e) → 0 < d) → (∀ i, i < d → Shown heap dt ds (b i) (v i)) →
      Shown heap dt (d :: ds) ((List.range d).flatMap b) (.slice (goTy dt ds) ((List.range d).map v))

/-- Reading an array with dimensions `dims` of this type leaves the type as it is. -/
def Steady : DT → List Nat → Prop
  | .array _ ad e, dims => dims = [] ∧ Steady e ad
  | _, _ => True

/-- The types that can be read: the members of compounds are listed in the order of their offsets,
do not overlap and, like the elements of sequences, keep their types; the Go names for the types can
be computed (`cast`). -/
def Legible (cast : DT → Res Unit) : DT → Prop
  | .opaque len t => cast (.opaque len t) = .ok ()
  | .compound len ms ts => cast (.compound len ms ts) = .ok () ∧ len < 2 ^ 32 ∧
      List.Pairwise (fun x y => x.1.2.1 + prod (x.1.2.2.getD []) * x.2.len ≤ y.1.2.1) (ms.zip ts) ∧
      (∀ x ∈ ms.zip ts, Steady x.2 (x.1.2.2.getD [])) ∧ LegibleAll cast ts
  | .vlen len false e => cast (.vlen len false e) = .ok () ∧ Steady e [] ∧ Legible cast e
  | .array _ _ e => Legible cast e
  | _ => True
where
  LegibleAll (cast : DT → Res Unit) : List DT → Prop
  | [] => True
  | t :: ts => Legible cast t ∧ LegibleAll cast ts

/-- The array whose element at the index `idx` has the value `val idx`. -/
def tabulateT (base : TTy) : List Nat → (List Nat → TVal) → TVal
  | [], val => val []
  | d :: ds, val => .slice (sliceTy base ds) ((List.range d).map fun i => tabulateT base ds fun is => val (i :: is))

/-- The rows `x` to `y` of a value. A line of characters is one string, and an enumeration has all its
numbers in one value. -/
def sliceV (x y : Nat) : TVal → TVal
  | .slice t xs => .slice t ((xs.drop x).take (y - x))
  | .str s => .str ((s.drop x).take (y - x))
  | .enum v ns ms => .enum (sliceV x y v) ns ms
  | v => v

/-- The value of an attribute as it is shown: an array of one element is that element. -/
def oneOut : TVal → TVal
  | .slice _ [x] => x
  | .enum (.slice _ [x]) ns ms => .enum x ns ms
  | v => v

/-- The attribute `a` has the value `v`: it is text, or bytes, or an array without elements. -/
inductive AttrShown (heap : HeapFn) (a : Attr) (v : TVal) : Prop
  | text (s : Bytes) : a.data = .value s → v = .str s → AttrShown heap a v
  | data (b rest : Bytes) : a.data = .df (b ++ rest) → b.length < 2 ^ 64 → Shown heap a.dt a.dims b v → AttrShown heap a v
  | empty : a.data = .none → Shown heap a.dt a.dims [] v → AttrShown heap a v

/-- Sequences, or arrays of them. -/
def IsSeq : DT → Prop
  | .vlen _ false _ => True
  | .array _ _ e => IsSeq e
  | _ => False

/-- The type after an array with dimensions `dims` of it has been read. -/
def typeAfter : DT → List Nat → DT
  | .array len ad e, dims => .array len (dims ++ ad) (typeAfter e (dims ++ ad))
  | dt, _ => dt

end Verif.H5
