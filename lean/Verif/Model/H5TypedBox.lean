import Verif.Model.H5TypedApi
import Verif.Model.H5Api
/-!
`GetSliceMD` of HDF5 variables of any type (netcdf/hdf5/hdf5.go, internal/slicer.go).
-/
namespace Verif.H5

/-- internal/slicer.go:84-109 `sliceRecursive`. The slices of this reader have no capacity behind
their length. Simplified: opaque values and compounds, which are slices for `reflect`, are returned
uncut; there are none above the last dimension. -/
def sliceRecT : List (Int × Int) → TVal → Res TVal
  | [], v => .ok v
  | (b, e) :: rs, .slice t xs =>
    if b < 0 ∨ e < b ∨ (xs.length : Int) < e then .panic
    else
      let ys := (xs.drop b.toNat).take (e - b).toNat
      match rs with
      | [] => .ok (.slice t ys)
      | r :: rs => (resAll (ys.map (sliceRecT (r :: rs)))).map (.slice t)
  | _ :: _, v => .ok v

/-- netcdf/hdf5/hdf5.go:3316-3343 `getSliceMD` of a getter for the variable `o`, and
internal/slicer.go:27-31 `GetSliceMD`, 79-82 `SliceMD`. -/
def Obj.getSliceMDT (cast : DT → Res Unit) (s : Src) (o : Obj) (t : TTab) (b e : List Int) : TTab × Res TVal :=
  if b.length ≠ (o.info.dims.getD []).length ∨ e.length ≠ (o.info.dims.getD []).length then (t, .err .dimensionality)
  else if (b.zip e).any (fun p => decide (p.2 < p.1)) then (t, .err .invalidSlice)
  else
    match b, e with
    | b0 :: bs, e0 :: es =>
      match o.getSliceT cast s t b0 e0 with
      | (t, .err x) => (t, .err x)
      | (t, .panic) => (t, .panic)
      | (t, .ok v) => (t, sliceRecT ((0, i64 (u64 (e0 - b0))) :: bs.zip es) v)
    | _, _ => (t, .panic)

/-- netcdf/hdf5/hdf5.go:3283-3294, internal/slicer.go:39-41 `Len`. -/
def Obj.lenT (o : Obj) : Int :=
  match o.info.dims.getD [] with
  | [] => 1
  | d :: _ => i64 d

/-- internal/slicer.go:33-37 `Values` of a getter for the variable `o`. -/
def Obj.valuesT (cast : DT → Res Unit) (s : Src) (o : Obj) (t : TTab) : TTab × Res TVal :=
  o.getSliceT cast s t 0 o.lenT

end Verif.H5
