import Verif.Model.Span
/-
Specification vocabulary for C46: the memory representation of an integer, byte by byte.
Of the model, only the list of types is used.
-/
namespace Vmap.Spec

/-- Byte `i` (from the lowest address) of the `n`-byte integer `v`. -/
def nativeByte (bigEndian : Bool) (n v i : Nat) : Nat :=
  if bigEndian then v / 256 ^ (n - 1 - i) % 256 else v / 256 ^ i % 256


end Vmap.Spec

namespace Vmap

/-- How many values a `T` can take: `2^8` for `u8` and so on; a `usize` counts every address. -/
def Scalar.count (t : Target) : Scalar → Nat
  | .u8 | .i8 => 2 ^ 8
  | .u16 | .i16 => 2 ^ 16
  | .u32 | .i32 | .f32 => 2 ^ 32
  | .u64 | .i64 | .f64 => 2 ^ 64
  | .u128 | .i128 => 2 ^ 128
  | .usize | .isize => t.lim

end Vmap
