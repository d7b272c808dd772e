import Verif.Spec.Shape
import Verif.Model.CdfWriter
/-!
Specification of what a user hands to the CDF writer and should get back.
-/
namespace Verif.Cdf

/-- A call on the writer. -/
inductive Call
  | addVar (name : Bytes) (vr : Variable)
  | addAttributes (attrs : Attrs)

/-- One call: the new state and the outcome. -/
def step (u : UniTables) (cw : Writer) : Call → Writer × Res Unit
  | .addVar name vr => cw.addVar u name vr
  | .addAttributes attrs => cw.addAttributes u attrs

/-- The state after a sequence of calls, `none` unless every call succeeds. -/
def runAll (u : UniTables) : List Call → Writer → Option Writer
  | [], cw => some cw
  | c :: cs, cw =>
    match step u cw c with
    | (cw', .ok ()) => runAll u cs cw'
    | _ => none

/-- Names of the variables in the order they were added. -/
def addedNames (calls : List Call) : List Bytes :=
  calls.filterMap fun | .addVar name _ => some name | .addAttributes _ => none

/-- The global attributes: those of the last `AddAttributes`, none at the beginning. -/
def lastAttributes (calls : List Call) : Attrs :=
  calls.foldl (fun a c => match c with | .addVar _ _ => a | .addAttributes attrs => attrs)
    (some OMap.empty)

/-- A signalling NaN of float32. -/
def Signalling32 (bits : Nat) : Prop :=
  bits / 2 ^ 23 % 256 = 255 ∧ bits % 2 ^ 23 ≠ 0 ∧ bits / 2 ^ 22 % 2 = 0

/-- `Supported named v shape w`: value `v`, given with or without dimension names, is stored with
the dimension lengths `shape`, and is to be read back as `w`. -/
inductive Supported (named : Bool) : GoVal → List Nat → GoVal → Prop
  /-- A number (not a signalling float32 NaN). -/
  | scalar (k : Kind) (bits : Nat) (hb : bits < 256 ^ k.size)
      (hs : k = .f32 → ¬ Signalling32 bits) :
      Supported named (.num k bits) [] (.num k bits)
  /-- A rectangular array of numbers of any rank and any non-zero lengths. -/
  | array (k : Kind) (dims : List Nat) (v : GoVal) (hne : dims ≠ []) (hpos : ∀ d ∈ dims, 0 < d)
      (ha : NumArray k dims v) : Supported named v dims v
  /-- One ASCII character without a dimension name is a character. -/
  | char (c : UInt8) (hc : c.toNat < 128) (hn : named = false) :
      Supported named (.str [c]) [] (.str [c])
  /-- Any other non-empty string is an array of characters. -/
  | string (s : Bytes) (hs : s ≠ []) (hn : s.length ≠ 1 ∨ named = true) :
      Supported named (.str s) [s.length] (.str s)
  /-- A rectangular array of strings, the first innermost row of which has a string of the maximal
  length `L`: the strings are padded to length `L`. -/
  | strings (L : Nat) (ds : List Nat) (v : GoVal) (hne : ds ≠ []) (hpos : ∀ d ∈ ds, 0 < d)
      (hL : 0 < L) (ha : StrArray L ds v)
      (hrow : ∃ s, GoVal.str s ∈ (leaves ds.length v).take (ds.getLast hne) ∧ s.length = L) :
      Supported named v (ds ++ [L]) (mapLeaves (padNul L) ds.length v)

/-- A value of one of the Go types that CDF attributes can have. -/
def AttrVal : GoVal → Prop
  | .str _ => True
  | .num k bits => bits < 256 ^ k.size
  | .slice (.num k) xs => ∀ x ∈ xs, NumVal k x
  | _ => False

/-- How an attribute comes back: a one-element slice as its element. -/
def unwrap1 : GoVal → GoVal
  | .slice _ [x] => x
  | v => v

/-- An attribute map without duplicate keys and with values of supported types. -/
def AttrsFine (attrs : Attrs) : Prop :=
  ∀ om, attrs = some om → om.visibleKeys.Nodup ∧
    ∀ k ∈ om.visibleKeys, ∃ v, om.get k = some v ∧ AttrVal v

/-- The keys of an attribute map, in order. -/
def keysOf (attrs : Attrs) : List Bytes :=
  match attrs with
  | none => []
  | some om => om.visibleKeys

/-- The value of an attribute. -/
def valueOf (attrs : Attrs) (k : Bytes) : Option GoVal :=
  match attrs with
  | none => none
  | some om => om.get k

/-- `b` is what should be read back for the attributes `a`: the same keys in the same order with
the same values, up to the unwrapping of one-element slices. -/
def ReadBackAs (a : Attrs) (b : Attrs) : Prop :=
  keysOf b = keysOf a ∧ ∀ k ∈ keysOf a, valueOf b k = (valueOf a k).map unwrap1

/-- The arguments of a call are of supported types, its dimension names can be stored. -/
def FineCall : Call → Prop
  | .addVar _ vr =>
    (∃ shape w, Supported (!vr.dimensions.isEmpty) vr.values shape w) ∧
    (∀ n ∈ vr.dimensions, n ≠ [] ∧ ∀ b ∈ n, b ≠ (0 : UInt8)) ∧ AttrsFine vr.attributes
  | .addAttributes attrs => AttrsFine attrs

/-- Element kind of a type, if it is a number or an array of numbers. -/
def baseKind : GoTy → Option Kind
  | .num k => some k
  | .slice t => baseKind t
  | _ => none

/-- The types that exist in version 5 of the format only. -/
def V5Kind (k : Kind) : Prop := k = .u8 ∨ k = .u16 ∨ k = .u32 ∨ k = .u64 ∨ k = .i64

/-- A value that needs version 5. -/
def NeedsV5 (v : GoVal) : Prop := ∃ k, baseKind v.ty = some k ∧ V5Kind k

/-- An attribute map that needs version 5. -/
def AttrsNeedV5 (attrs : Attrs) : Prop :=
  ∃ k ∈ keysOf attrs, ∃ v, valueOf attrs k = some v ∧ NeedsV5 v

/-- A variable among those added needs version 5. -/
def VarsNeedV5 (calls : List Call) : Prop :=
  ∃ name vr, Call.addVar name vr ∈ calls ∧ (NeedsV5 vr.values ∨ AttrsNeedV5 vr.attributes)

end Verif.Cdf
