import Verif.Base.Bytes
/-!
Model of netcdf/netcdf4.go: which implementation opens a file.
-/
namespace Verif

/-- netcdf/netcdf4.go:23-26 `FileKind`; any other int is possible too. -/
inductive FileKind
  | cdf | hdf5 | unknown (n : Int)
deriving DecidableEq

/-- Which implementation is used. -/
inductive Impl
  | cdf | hdf5
deriving DecidableEq, Repr

/-- netcdf/netcdf4.go:70-78 `getKind`: the first byte, or an error for an empty file. -/
def getKind (file : Bytes) : Res UInt8 :=
  match file with
  | [] => .err .eof
  | b :: _ => .ok b

/-- netcdf/netcdf4.go:29-49 `Open` and 54-68 `New`: the implementation whose `Open`/`New` is called,
or `ErrUnknown`. `magicCDF = 'C'`, `magicHDF = 0x89` (netcdf4.go:12-15). -/
def dispatch (file : Bytes) : Res Impl :=
  match getKind file with
  | .ok k =>
    if k = 67 then .ok .cdf
    else if k = 0x89 then .ok .hdf5
    else .err .unknownKind
  | _ => .err .unknownKind

/-- netcdf/netcdf4.go:81-89 `OpenWriter`. -/
def dispatchWriter : FileKind → Res Impl
  | .cdf => .ok .cdf
  | .hdf5 => .ok .hdf5
  | .unknown _ => .err .unknownKind

end Verif
