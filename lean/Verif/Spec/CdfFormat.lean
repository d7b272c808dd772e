import Verif.Spec.Stored
/-!
The classic netCDF file format, versions 1 (classic), 2 (64-bit offset) and 5 (64-bit data), as its
specification describes it, independently of the code: what a file that some program has written
looks like and what it means.

    netcdf_file = header data
    header      = magic numrecs dim_list gatt_list var_list
    dim         = name dim_length
    attr        = name nc_type nelems [values ...]
    var         = name nelems [dimid ...] vatt_list nc_type vsize begin
-/
namespace Verif.Cdf.Classic

/-- External types; `none` is `char`. -/
abbrev Ty := Option Kind

/-- `nc_type`. -/
def Ty.code : Ty → Nat
  | some .i8 => 1
  | none => 2
  | some .i16 => 3
  | some .i32 => 4
  | some .f32 => 5
  | some .f64 => 6
  | some .u8 => 7
  | some .u16 => 8
  | some .u32 => 9
  | some .i64 => 10
  | some .u64 => 11

/-- Bytes of one value. -/
def Ty.size : Ty → Nat
  | some .i8 | none | some .u8 => 1
  | some .i16 | some .u16 => 2
  | some .i32 | some .f32 | some .u32 => 4
  | some .f64 | some .i64 | some .u64 => 8

/-- The types that only version 5 has. -/
def Ty.isNew : Ty → Bool
  | some .u8 | some .u16 | some .u32 | some .i64 | some .u64 => true
  | _ => false

/-- The value of an attribute: text, or numbers of one type (as bits). -/
inductive Value
  | text (s : Bytes)
  | numbers (k : Kind) (bits : List Nat)

structure Att where
  name : Bytes
  value : Value

/-- `len` is 0 for the unlimited dimension. -/
structure Dimension where
  name : Bytes
  len : Nat

/-- `dims` are the dimension ids, `vsize` is what the header has for it, `begin_` where the data
starts. -/
structure Var where
  name : Bytes
  dims : List Nat
  atts : List Att
  ty : Ty
  vsize : Nat
  begin_ : Nat

structure File where
  version : Nat
  numrecs : Nat
  dims : List Dimension
  atts : List Att
  vars : List Var

/-! ### The bytes of a header -/

/-- A count, length, id or size: 4 bytes, 8 in version 5. -/
def number (version n : Nat) : Bytes := if version = 5 then beEnc 8 n else beEnc 4 n

/-- Bytes with NULs up to the next multiple of four. -/
def padded (b : Bytes) : Bytes := b ++ List.replicate ((4 - b.length % 4) % 4) 0

def name (version : Nat) (s : Bytes) : Bytes := number version s.length ++ padded s

/-- A list with its tag; the empty list is ABSENT. -/
def list {α : Type} (version tag : Nat) (xs : List α) (enc : α → Bytes) : Bytes :=
  if xs.length = 0 then beEnc 4 0 ++ number version 0
  else beEnc 4 tag ++ (number version xs.length ++ xs.flatMap enc)

def Dimension.bytes (version : Nat) (d : Dimension) : Bytes :=
  Classic.name version d.name ++ number version d.len

def Value.ty : Value → Ty
  | .text _ => none
  | .numbers k _ => some k

def Value.count : Value → Nat
  | .text s => s.length
  | .numbers _ bits => bits.length

def Value.bytes : Value → Bytes
  | .text s => s
  | .numbers k bits => bits.flatMap (fun b => beEnc (Ty.size (some k)) b)

def Att.bytes (version : Nat) (a : Att) : Bytes :=
  Classic.name version a.name ++ (beEnc 4 a.value.ty.code ++
    (number version a.value.count ++ padded a.value.bytes))

def Var.bytes (version : Nat) (v : Var) : Bytes :=
  Classic.name version v.name ++ (number version v.dims.length ++
    (v.dims.flatMap (number version) ++ (list version 12 v.atts (Att.bytes version) ++
      (beEnc 4 v.ty.code ++ (number version v.vsize ++
        (if version = 1 then beEnc 4 v.begin_ else beEnc 8 v.begin_))))))

def File.header (f : File) : Bytes :=
  (ascii "CDF" ++ beEnc 1 f.version) ++ (number f.version f.numrecs ++
    (list f.version 10 f.dims (Dimension.bytes f.version) ++
      (list f.version 12 f.atts (Att.bytes f.version) ++
        list f.version 11 f.vars (Var.bytes f.version))))

/-! ### The data -/

/-- The length of the dimension with this id. -/
def File.len (f : File) (id : Nat) : Nat := ((f.dims[id]?).map (·.len)).getD 0

/-- The name of the dimension with this id. -/
def File.dimName (f : File) (id : Nat) : Bytes := ((f.dims[id]?).map (·.name)).getD []

/-- A record variable has the unlimited dimension as its first one. -/
def File.isRecord (f : File) (v : Var) : Bool :=
  match v.dims with
  | [] => false
  | id :: _ => f.len id == 0

/-- The shape of a variable. -/
def File.shape (f : File) (v : Var) : List Nat :=
  v.dims.map (fun id => if f.len id = 0 then f.numrecs else f.len id)

/-- The bytes of a variable, or of one record of it. -/
def File.slab (f : File) (v : Var) : Nat :=
  (if f.isRecord v then prod (v.dims.tail.map f.len) else prod (v.dims.map f.len)) * v.ty.size

/-- Up to the next multiple of four. -/
def up4 (n : Nat) : Nat := n + (4 - n % 4) % 4

/-- The bytes of a record: one part for each record variable, padded unless there is only one. -/
def File.recsize (f : File) : Nat :=
  match f.vars.filter f.isRecord with
  | [v] => f.slab v
  | vs => (vs.map (fun v => up4 (f.slab v))).sum

/-- Where the parts of a variable are in the file. -/
def File.places (f : File) (v : Var) : List Nat :=
  if f.isRecord v then (List.range f.numrecs).map (fun i => v.begin_ + i * f.recsize)
  else [v.begin_]

/-- The data of a variable. -/
def File.data (f : File) (bytes : Bytes) (v : Var) : Bytes :=
  (f.places v).flatMap (fun o => (bytes.drop o).take (f.slab v))

/-! ### Proper files -/

/-- Numbers are signed. -/
def File.limit (f : File) : Nat := if f.version = 5 then 2 ^ 63 else 2 ^ 31

structure NameOK (f : File) (s : Bytes) : Prop where
  nul : ∀ b ∈ s, b ≠ 0
  len : s.length < f.limit

structure AttsOK (f : File) (as : List Att) : Prop where
  count : as.length < f.limit
  distinct : (as.map (·.name)).Nodup
  names : ∀ a ∈ as, NameOK f a.name
  counts : ∀ a ∈ as, a.value.count < f.limit
  bits : ∀ a ∈ as, ∀ k bs, a.value = .numbers k bs → ∀ b ∈ bs, b < 256 ^ Ty.size (some k)
  new : ∀ a ∈ as, a.value.ty.isNew = true → f.version = 5

structure VarOK (f : File) (v : Var) : Prop where
  name : NameOK f v.name
  rank : v.dims.length ≤ 1024
  ids : ∀ id ∈ v.dims, id < f.dims.length
  /-- only the first dimension may be the unlimited one -/
  inner : ∀ id ∈ v.dims.tail, 0 < f.len id
  atts : AttsOK f v.atts
  new : v.ty.isNew = true → f.version = 5
  begin_ : v.begin_ < if f.version = 1 then 2 ^ 32 else 2 ^ 63
  /-- any value for a fixed-size variable (very large ones have an arbitrary one) -/
  vsize : v.vsize < if f.version = 5 then 2 ^ 64 else 2 ^ 32
  /-- the size of a record of a record variable -/
  record : f.isRecord v = true → v.vsize = up4 (f.slab v) ∧ v.vsize < f.limit

/-- A proper header. -/
structure File.OK (f : File) : Prop where
  version : f.version = 1 ∨ f.version = 2 ∨ f.version = 5
  numrecs : f.numrecs < f.limit
  ndims : f.dims.length ≤ 1024
  dims : ∀ d ∈ f.dims, NameOK f d.name ∧ d.len < f.limit
  dimNames : (f.dims.map (·.name)).Nodup
  atts : AttsOK f f.atts
  nvars : f.vars.length < f.limit
  vars : ∀ v ∈ f.vars, VarOK f v
  names : (f.vars.map (·.name)).Nodup
  recsize : f.recsize < 2 ^ 63

/-- `bytes` is a file with this header and the data of all variables. -/
structure File.Is (f : File) (bytes : Bytes) : Prop where
  ok : f.OK
  header : f.header <+: bytes
  data : ∀ v ∈ f.vars, ∀ o ∈ f.places v, o + f.slab v ≤ bytes.length

/-! ### What it means -/

/-- An attribute as a Go value: a single number is not a slice. -/
def Value.go : Value → GoVal
  | .text s => .str s
  | .numbers k [b] => .num k b
  | .numbers k bits => .slice (.num k) (bits.map (.num k))

/-- `v` is the array of this type and shape with these bytes; a single character is a string. -/
def Holds (ty : Ty) (shape : List Nat) (bytes : Bytes) (v : GoVal) : Prop :=
  if ty = none ∧ shape = [] then v = .str bytes else Stored ty shape bytes v

end Verif.Cdf.Classic
