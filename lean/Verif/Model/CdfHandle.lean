import Verif.Base.Bytes
/-!
Model of the reference count on an open CDF file, netcdf/cdf/cdf.go:542-566 and 584-595.
All groups handed out by `GetGroup` are the same Go pointer, so one state is enough.
-/
namespace Verif

/-- The part of netcdf/cdf/cdf.go:68-80 `CDF` that concerns closing. `closes` counts calls of
`file.Close()` on the underlying file, `hasFile` says that `cdf.file` is not nil. -/
structure CdfHandle where
  refCount : Nat
  hasFile : Bool
  closes : Nat
deriving DecidableEq, Repr

/-- netcdf/cdf/cdf.go:586, a freshly opened file. -/
def CdfHandle.opened : CdfHandle := ⟨1, true, 0⟩

/-- netcdf/cdf/cdf.go:542-553 `Close`. An underflow throws `ErrInternal`, which the deferred
`RecoverError(nil)` swallows; the model keeps the state. -/
def CdfHandle.close (h : CdfHandle) : Res CdfHandle :=
  if h.refCount > 0 then
    let h := { h with refCount := h.refCount - 1 }
    if h.refCount = 0 then
      if h.hasFile then .ok { h with closes := h.closes + 1, hasFile := false }
      else .panic
    else .ok h
  else .err .internal

/-- netcdf/cdf/cdf.go:557-566 `GetGroup`. -/
def CdfHandle.getGroup (h : CdfHandle) (group : Bytes) : Res CdfHandle :=
  if group ≠ [] ∧ group ≠ [47] then .err .notFound
  else .ok { h with refCount := h.refCount + 1 }

end Verif
