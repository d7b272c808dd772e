import Verif.Spec.H5Type
import Verif.Spec.H5Typed
/-!
Specification for values of user-defined types: the values that belong to a stored type, and their
arrays, without the model of the code.
-/
namespace Verif.H5

/-- `Item strs seqs t v`: `v` is one element of the stored type `t`: a number, bytes, a member of an
enumeration or a compound of such elements. With `strs` there may also be strings, with `seqs`
sequences (of elements without strings or sequences in them). The Go type of a sequence says which
elements it has; only for numbers there may be none. -/
inductive Item : Bool → Bool → WTy → TVal → Prop
  | num {a b : Bool} (k : Kind) (bits : Nat) : bits < 256 ^ k.size → Item a b (.num k) (.num k bits)
  | blob {a b : Bool} (bs : Bytes) : Item a b (.opaque bs.length) (.opaque bs)
  | enum {a b : Bool} (k : Kind) (bits : Nat) (names : List Bytes) (vals : List Nat) : k.isFloat = false →
      bits < 256 ^ k.size → Item a b (.enum k names vals) (.enum (.num k bits) names (vals.map (.num k)))
  | str {b : Bool} (s : Bytes) : 0 ∉ s → s.length < 2 ^ 32 → Item true b .vlenStr (.str s)
  | seq {a : Bool} (t : WTy) (xs : List TVal) : (∀ x ∈ xs, Item false false t x) → 0 < t.fieldSize →
      (xs = [] → ∃ k, t = .num k) → xs.length < 2 ^ 32 → Item a true (.vlenSeq t) (.slice (goTy t.dt []) xs)
  | compound {a b : Bool} (names : List Bytes) (ts : List WTy) (vs : List TVal) : names.length = ts.length →
      vs.length = ts.length →
      (∀ (i : Nat) (t : WTy) (v : TVal), ts[i]? = some t → vs[i]? = some v → Item a b t v) →
      Item a b (.compound names ts) (.compound names vs)

/-- `v` is an array with dimensions `dims`: nested slices of the type for `base`, with elements that
satisfy `leaf`. -/
def ArrT (base : TTy) (leaf : TVal → Prop) : List Nat → TVal → Prop
  | [], v => leaf v
  | d :: ds, v => ∃ xs, v = .slice (sliceTy base ds) xs ∧ xs.length = d ∧ ∀ x ∈ xs, ArrT base leaf ds x

/-- Of the slices at depth `n`, no group has rows of one length only. -/
def UnevenT : Nat → TVal → Prop
  | 1, .slice _ xs => ∃ e a b, .slice e a ∈ xs ∧ .slice e b ∈ xs ∧ a.length ≠ b.length
  | n + 2, .slice _ xs => ∀ x ∈ xs, UnevenT (n + 1) x
  | _, _ => False

mutual
/-- The strings in a value. -/
def strsT : TVal → List Bytes
  | .str s => [s]
  | .slice _ xs => strsTs xs
  | .compound _ vs => strsTs vs
  | .enum v _ _ => strsT v
  | _ => []
/-- The elements. -/
def strsTs : List TVal → List Bytes
  | [] => []
  | x :: xs => strsT x ++ strsTs xs
end

mutual
/-- The number of slices in a value, named ones included. -/
def slicesT : TVal → Nat
  | .slice _ xs => 1 + slicesTs xs
  | .compound _ vs => 1 + slicesTs vs
  | .opaque _ => 1
  | .enum v _ _ => slicesT v
  | _ => 0
/-- The elements. -/
def slicesTs : List TVal → Nat
  | [] => 0
  | x :: xs => slicesT x + slicesTs xs
end

/-- The types of compounds and of opaque values. -/
def WTy.Record : WTy → Prop
  | .compound _ _ | .opaque _ => True
  | _ => False

/-- The values of user-defined types that a variable may have, with their stored types and dimensions. -/
inductive VarValue : WTy → List Nat → TVal → Prop
  | records (t : WTy) (dims : List Nat) (v : TVal) : t.Record → ArrT (goTy t.dt []) (Item true false t) dims v →
      (∀ d ∈ dims, d ≠ 0) → VarValue t dims v
  | seqs (t : WTy) (dims : List Nat) (v : TVal) :
      ArrT (.slice (goTy t.dt [])) (Item false true (.vlenSeq t)) dims v → (∀ d ∈ dims, d ≠ 0) →
      VarValue (.vlenSeq t) dims v
  | enum (k : Kind) (names : List Bytes) (vals dims : List Nat) (v : TVal) : k.isFloat = false →
      ArrT (.num k) (Item false false (.num k)) dims v → (∀ d ∈ dims.dropLast, d ≠ 0) →
      VarValue (.enum k names vals) dims (.enum v names (vals.map (.num k)))

/-- The values of user-defined types that an attribute may have. A compound may also have members that
are sequences. Slices of slices are sequences when their lengths differ. -/
inductive AttrValue : WTy → List Nat → TVal → Prop
  | records (t : WTy) (dims : List Nat) (v : TVal) : t.Record → ArrT (goTy t.dt []) (Item true true t) dims v →
      (∀ d ∈ dims, d ≠ 0) → AttrValue t dims v
  | seqs (t : WTy) (dims : List Nat) (v : TVal) :
      ArrT (.slice (goTy t.dt [])) (Item false true (.vlenSeq t)) dims v → (∀ d ∈ dims, d ≠ 0) →
      UnevenT dims.length v → AttrValue (.vlenSeq t) dims v
  | enum (k : Kind) (names : List Bytes) (vals dims : List Nat) (v : TVal) : k.isFloat = false →
      ArrT (.num k) (Item false false (.num k)) dims v → (∀ d ∈ dims.dropLast, d ≠ 0) →
      AttrValue (.enum k names vals) dims (.enum v names (vals.map (.num k)))

end Verif.H5
