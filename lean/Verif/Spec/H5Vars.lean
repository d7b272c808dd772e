import Verif.Spec.H5Typed
/-!
Variables with their dimensions and attributes in a file of another program, as the netCDF-4 format
has them: a variable lists the addresses of the dimension scales of its dimensions, a coordinate
variable is the scale of its own dimension.
-/
namespace Verif.H5

/-- The object is below the root group. -/
inductive Within (root : Obj) : Obj → Prop
  | child (k : Obj) : k ∈ root.kids → Within root k
  | deeper (m k : Obj) : Within root m → k ∈ m.kids → Within root k

/-- The attributes that belong to the format. -/
def reservedAttrs : List Bytes :=
  ["_Netcdf4Dimid", "_Netcdf4Coordinates", "DIMENSION_LIST", "NAME", "REFERENCE_LIST", "CLASS", "_NCProperties"].map ascii

/-- All attributes of an object have values, which `av` gives. -/
def AttrsShown (cast : DT → Res Unit) (heap : HeapFn) (av : Attr → TVal) (i : Info) : Prop :=
  (∃ pat, attrFill i = .ok pat) ∧ ∀ a ∈ i.attrs, AttrShown heap a (av a) ∧ Legible cast a.dt

/-- The back references of dimension scales: an address and the number of a dimension, which is signed
in older files. -/
def RefListShown (v : TVal) : Prop :=
  ∃ refs : List (List Bytes × Nat × Kind × Nat), (∀ r ∈ refs, r.2.2.1 = .i32 ∨ r.2.2.1 = .u32) ∧
    v = .slice .compound (refs.map fun r => .compound r.1 [.num .u64 r.2.1, .num r.2.2.1 r.2.2.2])

/-- All attributes in the file have values. -/
def AllShown (cast : DT → Res Unit) (heap : HeapFn) (root : Obj) : Prop :=
  ∀ k, k = root ∨ Within root k → ∃ av, AttrsShown cast heap av k.info ∧
    ∀ a ∈ k.info.attrs, a.name = ascii "REFERENCE_LIST" → a.data ≠ .none ∧ RefListShown (av a)

/-- The names of the dimensions of a variable. -/
inductive DimsOf (cast : DT → Res Unit) (heap : HeapFn) (root v : Obj) (av : Attr → TVal) : List Bytes → Prop
  /-- One scale for each dimension. -/
  | listed (pre post : List Attr) (a : Attr) (scales : List Obj) : v.info.attrs = pre ++ a :: post →
      a.name = ascii "DIMENSION_LIST" → (∀ x ∈ pre ++ post, x.name ≠ ascii "DIMENSION_LIST") → a.data ≠ .none → scales ≠ [] →
      (∀ k ∈ scales, Within root k ∧ k.info.name ≠ []) →
      av a = .slice (.slice (.num .u64)) (scales.map fun k => .slice (.num .u64) [.num .u64 k.info.addr]) →
      DimsOf cast heap root v av (scales.map fun k => k.info.name)
  /-- A coordinate variable. -/
  | coordinate (pre post : List Attr) (a : Attr) (n : Bytes) : (∀ x ∈ v.info.attrs, x.name ≠ ascii "DIMENSION_LIST") →
      AllShown cast heap root → v.info.attrs = pre ++ a :: post → (∀ x ∈ pre, x.name ≠ ascii "NAME") → a.name = ascii "NAME" →
      a.data ≠ .none → av a = .str n → (ascii "This is a netCDF dimension").isPrefixOf n = false →
      DimsOf cast heap root v av [n]
  /-- No dimensions. -/
  | none : (∀ x ∈ v.info.attrs, x.name ≠ ascii "DIMENSION_LIST" ∧ x.name ≠ ascii "NAME") → AllShown cast heap root →
      DimsOf cast heap root v av []

/-- The object is a variable, not only a dimension. -/
def IsVariable (v : Obj) : Prop :=
  v.info.dims.isSome ∧ ((∀ a ∈ v.info.attrs, a.name ≠ ascii "CLASS") ∨
    ∃ a ∈ v.info.attrs, a.name = ascii "NAME" ∧ ∃ n, a.data = .value n ∧ (ascii "This is a netCDF dimension").isPrefixOf n = false)

end Verif.H5
