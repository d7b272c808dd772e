import Verif.Spec.Stored
/-!
Specification of fill values: the user's `_FillValue`, or the standard one of the netCDF format.
-/
namespace Verif.Cdf

/-- Standard fill values of the netCDF classic formats as they look in a file:
byte -127, char NUL, short -32767, int -2147483647, float and double 9.96921e36, ubyte 255,
ushort 65535, uint 4294967295, int64 -9223372036854775806, uint64 18446744073709551614. -/
def stdFill : Option Kind → Bytes
  | some .i8 => [0x81]
  | none => [0x00]
  | some .i16 => [0x80, 0x01]
  | some .i32 => [0x80, 0x00, 0x00, 0x01]
  | some .f32 => [0x7c, 0xf0, 0x00, 0x00]
  | some .f64 => [0x47, 0x9e, 0x00, 0x00, 0x00, 0x00, 0x00, 0x00]
  | some .u8 => [0xff]
  | some .u16 => [0xff, 0xff]
  | some .u32 => [0xff, 0xff, 0xff, 0xff]
  | some .i64 => [0x80, 0x00, 0x00, 0x00, 0x00, 0x00, 0x00, 0x02]
  | some .u64 => [0xff, 0xff, 0xff, 0xff, 0xff, 0xff, 0xff, 0xfe]

/-- `fb` are the bytes of one fill element of a variable of kind `k` (`none`: char) whose attribute
`_FillValue` is `user`. -/
def FillOf (k : Option Kind) (user : Option GoVal) (fb : Bytes) : Prop :=
  match user with
  | none => fb = stdFill k
  | some v => (v = .num (k.getD .u8) (beDec fb) ∨ ∃ t, v = .slice t [.num (k.getD .u8) (beDec fb)]) ∧
      fb.length = (k.getD .u8).size

end Verif.Cdf
