import Verif.Model.CdfWriter
/-!
`Close` of the CDF writer as an operation on the writer and its file: netcdf/cdf/cdfwriter.go:839-852.
-/
namespace Verif.Cdf

/-- A CDF writer with its file. `disk` is what the file holds, `closed` says that the file has been
closed (`cw.file` is nil then). -/
structure CState where
  w : Writer
  disk : Bytes := []
  closed : Bool := false

/-- netcdf/cdf/cdfwriter.go:839-852 `Close`. The operating system is taken to succeed in writing
to an open file and to refuse writing to a closed one, which `Flush` (or, for more bytes than the
buffer holds, `MustWriteBE`) reports. When `writeAll` fails the file stays open; what is in the
buffer or on the disk then is not modelled, the version may have been raised by line 912. -/
def CState.close (s : CState) : CState × Res Unit :=
  match s.w.writeAll with
  | .panic => (s, .panic)
  | .err e => (s, .err e)
  | .ok out =>
    if s.closed then (s, .err .other)
    else
      ({ w := { s.w with version := (checkV5Attributes s.w.version s.w.globalAttrs).1 }
         disk := out
         closed := true }, .ok ())

end Verif.Cdf
