import Verif.Model.H5TypedApi
import Verif.Model.AttrTypes
/-!
The names of types: `Type()` and `GoType()` of a getter, `ListTypes`, `GetType`, `GetGoType`, the
types of attributes, and `cast`. The functions are `cdlTypeString` and `goTypeString` of the type
managers of netcdf/hdf5 and `findSignature`, netcdf/hdf5/hdf5.go:3060-3083.

A type that is stored with a variable has no name; the code looks for a type of the group with the
same text. It ranges over a map, in an order that is not defined and that can be another one each
time. Here `ord` says the order: it has an argument for the place in the tree of calls, so that no
two loops need to agree.

The set `origNames` is a map whose entries are set and unset again; here it is the list of names that
are set.
-/
namespace Verif.H5

/-- The two printers, `cdlTypeString` and `goTypeString`. -/
inductive Notation
  | cdl
  | go
deriving DecidableEq, Repr

/-- An integer in decimal, as `%v` prints it. -/
def intDec (i : Int) : Bytes := if i < 0 then 45 :: decDigits i.natAbs else decDigits i.natAbs

/-- The value of a bit pattern of `len` bytes. -/
def valueOf (len : Nat) (signed : Bool) (bits : Nat) : Int :=
  let n := bits % 256 ^ len
  if signed ∧ 256 ^ len ≤ 2 * n then (n : Int) - 256 ^ len else n

/-- `strings.Join`. -/
def joinWith (sep : Bytes) : List Bytes → Bytes
  | [] => []
  | [x] => x
  | x :: xs => x ++ sep ++ joinWith sep xs

/-- netcdf/hdf5/fixedPoint.go:22-58; another length is a panic. -/
def fixedText (nt : Notation) (len : Nat) (signed : Bool) : Res Bytes :=
  let u := if signed then [] else ascii "u"
  match nt, len with
  | .cdl, 1 => .ok (u ++ ascii "byte")
  | .cdl, 2 => .ok (u ++ ascii "short")
  | .cdl, 4 => .ok (u ++ ascii "int")
  | .cdl, 8 => .ok (u ++ ascii "int64")
  | .go, 1 => .ok (u ++ ascii "int8")
  | .go, 2 => .ok (u ++ ascii "int16")
  | .go, 4 => .ok (u ++ ascii "int32")
  | .go, 8 => .ok (u ++ ascii "int64")
  | _, _ => .panic

/-- netcdf/hdf5/floatingPoint.go:22-42. -/
def floatText (nt : Notation) (len : Nat) : Res Bytes :=
  match nt, len with
  | .cdl, 4 => .ok (ascii "float")
  | .cdl, 8 => .ok (ascii "double")
  | .go, 4 => .ok (ascii "float32")
  | .go, 8 => .ok (ascii "float64")
  | _, _ => .panic

/-- netcdf/hdf5/opaque.go:19, 28. -/
def opaqueText (nt : Notation) (len : Nat) : Bytes :=
  match nt with
  | .cdl => ascii "opaque(" ++ decDigits len ++ ascii ")"
  | .go => ascii "[" ++ decDigits len ++ ascii "]uint8"

/-- netcdf/hdf5/compound.go:26-32, 41-47, from the texts of the types of the members. -/
def compoundText (nt : Notation) (names texts : List Bytes) : Bytes :=
  match nt with
  | .cdl => ascii "compound {\n" ++
      joinWith [] (List.zipWith (fun n t => ascii "\t" ++ t ++ ascii " " ++ n ++ ascii ";\n") names texts) ++ ascii "}"
  | .go => ascii "struct {\n" ++
      joinWith (ascii "\n") (List.zipWith (fun n t => ascii "\t" ++ n ++ ascii " " ++ t) names texts) ++ ascii "\n}\n"

/-- netcdf/hdf5/enum.go:51-55: the members in Go; the first has the name of the type. -/
def goMembers (owner : Bytes) : List Bytes → List Int → List Bytes
  | n :: ns, v :: vs => (ascii "\t" ++ n ++ ascii " " ++ owner ++ ascii " = " ++ intDec v) ::
      List.zipWith (fun n v => ascii "\t" ++ n ++ ascii " = " ++ intDec v) ns vs
  | _, _ => []

/-- netcdf/hdf5/enum.go:30-35, 49-58. -/
def enumText (nt : Notation) (owner base : Bytes) (names : List Bytes) (vals : List Int) : Bytes :=
  match nt with
  | .cdl => base ++ ascii " enum {\n" ++
      joinWith (ascii ",\n") (List.zipWith (fun n v => ascii "\t" ++ n ++ ascii " = " ++ intDec v) names vals) ++ ascii "\n}"
  | .go => base ++ ascii "\nconst (\n" ++ joinWith (ascii "\n") (goMembers owner names vals) ++ ascii "\n)\n"

/-- netcdf/hdf5/vlen.go:26, 42. -/
def vlenText (nt : Notation) (t : Bytes) : Bytes :=
  match nt with
  | .cdl => t ++ ascii "(*)"
  | .go => ascii "[]" ++ t

/-- netcdf/hdf5/array.go:20-25, 35-40. -/
def arrayText (nt : Notation) (t : Bytes) (dims : List Nat) : Bytes :=
  match nt with
  | .cdl => t ++ ascii "(" ++ joinWith (ascii ",") (dims.map decDigits) ++ ascii ")"
  | .go => (dims.flatMap fun d => ascii "[" ++ decDigits d ++ ascii "]") ++ t

/-- The name that `findSignature` gives, or else the text itself. -/
def named (find : Bytes → Res Bytes) (sig : Bytes) : Res Bytes := do
  let n ← find sig
  pure (if n = [] then sig else n)

/-- `assert(ty != "", …)` -/
def nonEmpty (t : Bytes) : Res Bytes := if t = [] then .err .assertFail else .ok t

mutual
/-- netcdf/hdf5/types.go:110-116 `cdlTypeString`, `goTypeString`, and the functions of the type
managers. `owner` is the name that is passed down, `place` the place in the tree of calls. In a type
that the parser has accepted the child of an enumeration is a number. -/
def typeText (find : List Nat → Bytes → Res Bytes) (nt : Notation) (owner : Bytes) : List Nat → DT → Res Bytes
  | _, .fixed len signed _ => fixedText nt len signed
  | _, .float len _ => floatText nt len
  | _, .time _ => .ok []
  | _, .str _ => .ok (ascii "string")
  | _, .ref _ => .ok (ascii "uint64")
  | place, .opaque len _ => named (find place) (opaqueText nt len)
  | place, .compound _ ms ts => do
    let texts ← typeTexts find nt owner place 1 ts
    named (find place) (compoundText nt (ms.map (·.1)) texts)
  | place, .enum _ base names vals => do
    let t ← typeText find nt owner (1 :: place) base
    let t ← nonEmpty t
    match base with
    | .fixed len signed _ => named (find place) (enumText nt owner t names (vals.map (valueOf len signed)))
    | _ => .panic
  | _, .vlen _ true _ => .ok (ascii "string")
  | place, .vlen _ false e => do
    let t ← typeText find nt owner (1 :: place) e
    let t ← nonEmpty t
    named (find place) (vlenText nt t)
  | place, .array _ dims e => do
    let t ← typeText find nt owner (1 :: place) e
    let t ← nonEmpty t
    let n ← find place (arrayText nt t dims)
    if n = [] then pure (arrayText nt t dims) else .err .assertFail
/-- The members of a compound. -/
def typeTexts (find : List Nat → Bytes → Res Bytes) (nt : Notation) (owner : Bytes) : List Nat → Nat → List DT → Res (List Bytes)
  | _, _, [] => .ok []
  | place, i, t :: ts => do
    let x ← typeText find nt owner (i :: place) t
    let xs ← typeTexts find nt owner place (i + 1) ts
    pure (x :: xs)
end

/-- A type of a group: its name and what is stored; `none` for an object without a datatype
message, for which the printers panic. -/
abbrev NamedType := Bytes × Option DT

/-- netcdf/hdf5/hdf5.go:3064-3081, the loop of `findSignature`; `text` is the printer. -/
def sigLoop (text : Nat → Bytes → DT → Res Bytes) (used : List Bytes) (sig : Bytes) : Nat → List NamedType → Res Bytes
  | _, [] => .ok []
  | i, (n, t) :: ts =>
    if n ∈ used then sigLoop text used sig (i + 1) ts
    else
      match t with
      | none => .panic
      | some t => do
        let s ← text i n t
        if s ≠ [] ∧ s = sig then pure n else sigLoop text used sig (i + 1) ts

/-- netcdf/hdf5/hdf5.go:3060-3083 `findSignature`. Every level of the recursion uses one more name, so
one more than the number of types is enough fuel. -/
def findSig (ord : List Nat → List NamedType → List NamedType) (types : List NamedType) (nt : Notation) (owner : Bytes) :
    Nat → List Bytes → List Nat → Bytes → Res Bytes
  | 0, _, _, _ => .panic
  | fuel + 1, used, place, sig =>
    sigLoop (fun i n t => typeText (findSig ord types nt owner fuel (n :: used)) nt owner (i :: 0 :: place) t)
      used sig 0 (ord place types)

/-- A printer at the outermost level. -/
def describe (ord : List Nat → List NamedType → List NamedType) (types : List NamedType) (nt : Notation) (owner : Bytes)
    (used : List Bytes) (t : DT) : Res Bytes :=
  typeText (findSig ord types nt owner (types.length + 1) used) nt owner [] t

/-! ### The calls -/

/-- netcdf/hdf5/hdf5.go:3014-3023, 3065-3074: the object is a type. -/
def isType (o : Obj) : Bool := !o.info.isGroup && !(classify o.info.attrs).isScale && o.info.dims.isNone

/-- The types of a group. -/
def Group.types (g : Group) : List NamedType := (g.obj.kids.filter isType).map fun o => (o.info.name, o.info.dt)

/-- netcdf/hdf5/hdf5.go:3011-3027 `ListTypes`, in no particular order. -/
def Group.listTypes (g : Group) : List Bytes := g.types.map (·.1)

/-- The printer of an object; without a datatype message the class is 0 and the length 0. -/
def Group.describe (g : Group) (ord : List Nat → List NamedType → List NamedType) (nt : Notation) (owner : Bytes) (used : List Bytes) :
    Option DT → Res Bytes
  | none => .panic
  | some t => H5.describe ord g.types nt owner used t

/-- netcdf/hdf5/hdf5.go:2957-2984 `GetType`. The assertion of line 2971 is not recovered. -/
def Group.getType (g : Group) (ord : List Nat → List NamedType → List NamedType) (name : Bytes) : Res (Option Bytes) :=
  match g.obj.child name with
  | none => .ok none
  | some o =>
    if o.info.dims.isSome then .ok none
    else if o.info.isGroup then .ok none
    else if o.info.attrs ≠ [] then .panic
    else escape ((g.describe ord .cdl name [name] o.info.dt).map some)

/-- netcdf/hdf5/hdf5.go:2987-3008 `GetGoType`. -/
def Group.getGoType (g : Group) (ord : List Nat → List NamedType → List NamedType) (name : Bytes) : Res (Option Bytes) :=
  match g.obj.child name with
  | none => .ok none
  | some o =>
    if o.info.attrs ≠ [] then .ok none
    else if o.info.dims.isSome then .ok none
    else if o.info.isGroup then .ok none
    else escape ((g.describe ord .go name [name] o.info.dt).map fun s => some (ascii "type " ++ name ++ ascii " " ++ s))

/-- netcdf/hdf5/hdf5.go:3349-3354 with 3276-3281: what `Type()` or `GoType()` of the getter returns;
errors of these lines are returned by `GetVarGetter`. The type is the one in the object at this moment
(see `TSt`). -/
def Group.varType (g : Group) (ord : List Nat → List NamedType → List NamedType) (nt : Notation) (t : TTab) (name : Bytes) : Res Bytes :=
  match g.findVariable name with
  | none => .err .notFound
  | some o => g.describe ord nt name [name] (t.of o).dt

/-- netcdf/hdf5/hdf5.go:2915-2921, 2935-2941: what is added to the type of an attribute for its
dimensions. -/
def withDims (nt : Notation) (dims : List Nat) (base : Bytes) : Bytes :=
  if dims = [1] then base
  else
    match nt with
    | .cdl => base ++ dims.flatMap fun _ => ascii "(*)"
    | .go => (dims.flatMap fun _ => ascii "[]") ++ base

/-- netcdf/hdf5/hdf5.go:2908-2946 with amap.go:13-21 and netcdf/util/orderedmap.go:167-176, 271-287:
`GetType` and `GetGoType` of an attribute map `m` of any object of the file: the callbacks look for an
attribute of the root group with this name. An attribute of an array type is shown as it is before its
value is read. -/
def Group.attrType (g : Group) (ord : List Nat → List NamedType → List NamedType) (nt : Notation) (m : GoMap TVal) (key : Bytes) :
    Res (Option Bytes) :=
  if m.all fun p => p.1 != key then .ok none
  else
    match g.root.info.attrs.find? (fun a => a.name == key) with
    | none => .panic
    | some a => escape ((H5.describe ord g.types nt key [] a.dt).map fun s =>
        if withDims nt a.dims s = [] then none else some (withDims nt a.dims s))

/-- netcdf/hdf5/hdf5.go:2752-2760 `cast`: nothing is registered, but the Go text is computed. -/
def Group.cast (g : Group) (ord : List Nat → List NamedType → List NamedType) (t : DT) : Res Unit := do
  let s ← H5.describe ord g.types .go (ascii "junk") [ascii "junk"] t
  if s = [] then .err .assertFail else pure ()

end Verif.H5
