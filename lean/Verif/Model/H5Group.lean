import Verif.Model.H5Object
/-!
Groups of an open HDF5 file: netcdf/hdf5/hdf5.go:2306-2375.
-/
namespace Verif.H5

/-- `/` -/
abbrev slash : UInt8 := 47

/-- `strings.Split(s, "/")`. The result is never empty. -/
def splitSlash : Bytes → List Bytes
  | [] => [[]]
  | c :: cs =>
    if c = slash then [] :: splitSlash cs
    else
      match splitSlash cs with
      | [] => [[c]]
      | p :: ps => (c :: p) :: ps

/-- `strings.Join(parts, "/")`. -/
def joinSlash : List Bytes → Bytes
  | [] => []
  | [p] => p
  | p :: q :: ps => p ++ slash :: joinSlash (q :: ps)

/-- netcdf/hdf5/hdf5.go:2306-2320 `canonicalizePath`. -/
def canonicalizePath (s : Bytes) : Bytes :=
  (if s.head? = some slash then [slash] else []) ++ joinSlash ((splitSlash s).filter (· ≠ []))

/-- netcdf/hdf5/hdf5.go:208-224 `HDF5`, the fields that `GetGroup` uses. -/
structure Group where
  root : Obj
  obj : Obj
  name : Bytes

/-- The child with this name: `obj.children[name]`. -/
def Obj.child (o : Obj) (name : Bytes) : Option Obj := o.kids.find? (fun k => k.info.name == name)

/-- netcdf/hdf5/hdf5.go:2346-2364 `sgDescend`. Every call has a longer `group`, so the length of
`groupName` bounds the depth of the recursion; `panic` is the slice expression out of range, or a
recursion that is too deep. -/
def sgDescend (groupName : Bytes) : Nat → Obj → Bytes → Res (Option Obj)
  | 0, _, _ => .panic
  | fuel + 1, o, group =>
    if o.info.isGroup = false then .ok none
    else if group = groupName then .ok (some o)
    else if groupName.length < group.length then .panic
    else
      match o.child ((splitSlash (groupName.drop group.length)).headD []) with
      | none => .ok none
      | some c => sgDescend groupName fuel c (group ++ c.info.name ++ [slash])

/-- netcdf/hdf5/hdf5.go:2324-2375 `GetGroup`. -/
def Group.getGroup (h : Group) (path : Bytes) : Res Group :=
  let group := canonicalizePath path
  let abs := group.head? = some slash
  let groupName := if abs then (if group ≠ [slash] then group ++ [slash] else [slash]) else h.name ++ group ++ [slash]
  let r := if abs then sgDescend groupName (groupName.length + 2) h.root [slash]
    else sgDescend groupName (groupName.length + 2) h.obj h.name
  match r with
  | .err e => .err e
  | .panic => .panic
  | .ok none => .err .notFound
  | .ok (some o) => .ok { root := h.root, obj := o, name := groupName }

end Verif.H5
