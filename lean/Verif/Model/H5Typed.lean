import Verif.Model.H5Api
/-!
Values of all stored types: compounds, enumerations, opaque blobs, references, arrays and sequences of
anything, as the type managers of netcdf/hdf5 read them (`alloc` in compound.go, enum.go, opaque.go,
reference.go, array.go, vlen.go). For numbers, strings and sequences of them this is `alloc` of
`Model/H5Value` again, with more values.

Reading an array type changes the type: `alloc` in array.go:48-63 stores the dimensions of the
enclosing variable in front of those of the array, in the type that the object keeps. So here reading
returns the type as it is afterwards.

`register` is private, so nothing is registered and `cast` returns nil; but it computes the Go name
of the type first, which can fail. `cast` is a parameter here: the outcome of that computation.
-/
namespace Verif.H5

/-! ### `convert` -/

/-- `n` slices around a type. -/
def slicesOf : Nat → TTy → TTy
  | 0, t => t
  | n + 1, t => .slice (slicesOf n t)

/-- netcdf/hdf5/hdf5.go:3430-3446 `emptySlice` of an empty slice with elements of type `t`. -/
def emptySlice (t : TTy) : TVal := .slice (slicesOf ((stripKinds t).2 - 1) (stripKinds t).1) []

mutual
/-- netcdf/hdf5/hdf5.go:3448-3480 `undoInterfaces`, `convert`. -/
def convertT : TVal → TVal
  | .slice t [] => emptySlice t
  | .slice t (x :: xs) =>
    if (convertTs xs).all fun y => y.ty == (convertT x).ty then
      .slice (convertT x).ty (convertT x :: convertTs xs)
    else .slice t (x :: xs)
  | v => v
/-- The elements. -/
def convertTs : List TVal → List TVal
  | [] => []
  | x :: xs => convertT x :: convertTs xs
end

/-! ### Arrays of elements -/

/-- `makeSlices`: slices of slices of `base`, one per dimension but for those that are given. -/
def nestT (base : TTy) : List Nat → TTy
  | [] => base
  | _ :: ds => .slice (nestT base ds)

/-- `n` times, collecting the results and passing on the type. -/
def timesT (p : DT → P (TVal × DT)) : Nat → DT → P (List TVal × DT)
  | 0, t => pure ([], t)
  | n + 1, t => do
    let (x, t) ← p t
    let (xs, t) ← timesT p n t
    pure (x :: xs, t)

/-- An array of elements that are read one after the other; see `allocArr`. Also
netcdf/hdf5/compound.go:205-222, opaque.go:77-91, reference.go:62-92. -/
def arrT (base : TTy) (p : DT → P (TVal × DT)) : List Nat → DT → P (TVal × DT)
  | [], t => p t
  | d :: ds, t => do
    let (xs, t) ← timesT (arrT base p ds) d t
    pure (.slice (nestT base ds) xs, t)

/-- Elements that do not change the type. -/
def still (p : P TVal) (t : DT) : P (TVal × DT) := do
  let v ← p
  pure (v, t)

/-- A value without opaques, compounds and enumerations. -/
def liftV : GoVal → TVal
  | .num k n => .num k n
  | .str s => .str s
  | .slice _ _ => .nil
  | .other _ => .nil
  | .user v => v

/-- One number. -/
def numT (k : Kind) (be : Bool) : P TVal := do
  let v ← allocNum k be
  pure (liftV v)

/-- netcdf/hdf5/string.go:56-60: one string of fixed length. -/
def fixStrT (len : Nat) : P TVal := do
  let v ← allocFixStr len
  pure (liftV v)

/-- netcdf/hdf5/vlen.go:120-138: one string of variable length. -/
def vlenStrT (heap : HeapFn) : P TVal := do
  let v ← allocVlenStr heap
  pure (liftV v)

/-- netcdf/hdf5/string.go:51-82 `allocRegularStrings` for strings of one byte; see `allocChars`. -/
def charsT : List Nat → P TVal
  | [] => fixStrT 1
  | [d] => fixStrT d
  | [d, e] =>
    if 0 < d then do
      let _ ← fixStrT e
      P.crash
    else pure (.slice (.slice .str) [])
  | d :: ds => do
    let xs ← times (charsT ds) d
    pure (.slice (nestT .str ds) xs)

/-- netcdf/hdf5/opaque.go:77-80: one blob. -/
def opaqueT (len : Nat) : P TVal := do
  let b ← rdN len
  pure (.opaque b)

/-! ### Sequences -/

/-- All elements of the list have the type of the first; `reflect` panics otherwise. `reflect.ValueOf`
of nil has no type. -/
def sameTypes (t : TTy) (xs : List TVal) : Bool := t != .nil && xs.all fun x => x.ty == t

/-- netcdf/hdf5/vlen.go:175-214: one sequence. An element is read from zeros for its type when the
sequence is empty. -/
def seqT (heap : HeapFn) (p : DT → P (TVal × DT)) (elem : DT) : P (TVal × DT) := do
  let (len, addr, idx) ← readDescriptor
  if len = 0 then do
    let (v, elem) ← P.lift (onBytes (List.replicate elem.len 0) (p elem))
    if v.ty = .nil then P.crash else pure (.slice v.ty [], elem)
  else do
    let b ← P.lift (heap addr idx)
    match b with
    | none => P.crash
    | some b => do
      let (xs, elem) ← P.lift (onBytes b (timesT p len elem))
      match xs with
      | [] => P.crash
      | x :: xs => if sameTypes x.ty xs then pure (.slice x.ty (x :: xs), elem) else P.crash

/-- netcdf/hdf5/vlen.go:215-244: arrays of sequences. -/
def seqsT (heap : HeapFn) (p : DT → P (TVal × DT)) : List Nat → DT → P (TVal × DT)
  | [], elem => seqT heap p elem
  | d :: ds, elem => do
    let (xs, elem) ← timesT (seqsT heap p ds) d elem
    match xs with
    | [] => P.crash
    | x :: xs => if sameTypes x.ty xs then pure (.slice x.ty (x :: xs), elem) else P.crash

/-! ### Compounds -/

/-- netcdf/hdf5/readers.go:358-370 `calcAttrSize` of a member. -/
def memberSize (dims : Option (List Nat)) (t : DT) : Nat := prod64 (dims.getD []) * t.len % 2 ^ 64

/-- netcdf/hdf5/compound.go:171-183: the loop over the members. -/
def membersT (p : DT → List Nat → P (TVal × DT)) :
    List (Bytes × Nat × Option (List Nat)) → List DT → P (List TVal × List DT)
  | m :: ms, t :: ts => do
    let pos ← count
    if pos < m.2.1 then skip (m.2.1 - pos) else pure ()
    let (v, t) ← sub (i64 (memberSize m.2.2 t)).toNat (p t (m.2.2.getD []))
    let (vs, ts) ← membersT p ms ts
    pure (v :: vs, t :: ts)
  | _, _ => pure ([], [])

/-- netcdf/hdf5/compound.go:162-187: one compound. -/
def compoundT (p : DT → List Nat → P (TVal × DT)) : DT → P (TVal × DT)
  | .compound len ms ts =>
    sub len do
      let (vs, ts) ← membersT p ms ts
      let pos ← count
      if pos < len then skip (len - pos) else pure ()
      pure (.compound (ms.map (·.1)) vs, .compound len ms ts)
  | _ => P.crash

/-! ### All types -/

/-- netcdf/hdf5/types.go:102-104 `alloc` and those of the type managers. The fuel is for nested types;
it is a run-time panic here when it runs out. -/
def allocT (cast : DT → Res Unit) (heap : HeapFn) : Nat → DT → List Nat → P (TVal × DT)
  | 0, _, _ => P.crash
  | fuel + 1, dt, dims =>
    match dt with
    | .fixed len s be =>
      match numKind (.fixed len s be) with
      | some (k, be) => arrT (.num k) (still (numT k be)) dims dt
      | none => P.fail .assertFail
    | .float len be =>
      match numKind (.float len be) with
      | some (k, be) => arrT (.num k) (still (numT k be)) dims dt
      | none => P.fail .assertFail
    | .time _ => pure (.nil, dt)
    | .str len =>
      if len = 1 then still (charsT dims) dt else arrT .str (still (fixStrT len)) dims dt
    | .opaque len _ => do
      P.lift (cast dt)
      arrT .opaque (still (opaqueT len)) dims dt
    | .compound _ _ _ => do
      P.lift (cast dt)
      arrT .compound (compoundT (allocT cast heap fuel)) dims dt
    | .ref _ => arrT (.num .u64) (still (numT .u64 false)) dims dt
    | .enum len base names vals =>
      match numKind base with
      | some (k, be) =>
        if k.isFloat then P.fail .assertFail
        else do
          let (v, _) ← arrT (.num k) (still (numT k be)) dims base
          pure (.enum v names (vals.map (.num k)), .enum len base names vals)
      | none => P.fail .assertFail
    | .vlen _ true _ => arrT .str (still (vlenStrT heap)) dims dt
    | .vlen len false elem => do
      P.lift (cast dt)
      let (v, elem) ← seqsT heap (fun t => allocT cast heap fuel t []) dims elem
      pure (convertT v, .vlen len false elem)
    | .array len adims elem => do
      let (v, elem) ← allocT cast heap fuel elem (dims ++ adims)
      pure (v, .array len (dims ++ adims) elem)

mutual
/-- How deep a type is nested. -/
def DT.nestDepth : DT → Nat
  | .compound _ _ ts => nestDepths ts + 1
  | .vlen _ _ e => e.nestDepth + 1
  | .array _ _ e => e.nestDepth + 1
  | _ => 1
/-- The members of a compound. -/
def nestDepths : List DT → Nat
  | [] => 0
  | t :: ts => max t.nestDepth (nestDepths ts)
end

/-- `alloc` with fuel for the whole type. -/
def allocTy (cast : DT → Res Unit) (heap : HeapFn) (dt : DT) (dims : List Nat) : P (TVal × DT) :=
  allocT cast heap dt.nestDepth dt dims

end Verif.H5
