import Verif.Model.Machine
/-
`vmap::Size` — src/lib.rs:303-463.
-/
namespace Vmap

/-- `pub struct Size(usize)` — src/lib.rs:304. -/
structure Size where
  unit : Nat
  deriving DecidableEq, Repr

namespace Size

/-- `Size::with_size` — src/lib.rs:345-347 (an `unsafe fn`: the caller promises a power
of two). -/
def withSize (size : Nat) : Size := ⟨size⟩

/-- `Size::truncate` — src/lib.rs:385-387: `len & !(self.0 - 1)`. -/
def truncate (t : Target) (s : Size) (len : Nat) : Exec Nat := do
  let m ← subU t s.unit 1
  return len &&& notU t m

/-- `Size::round` — src/lib.rs:365-367: `self.truncate(len + self.0 - 1)`
(left-associative: the addition happens first). -/
def round (t : Target) (s : Size) (len : Nat) : Exec Nat := do
  let a ← addU t len s.unit
  let b ← subU t a 1
  s.truncate t b

/-- `Size::offset` — src/lib.rs:403-405: `len & (self.0 - 1)`. -/
def offset (t : Target) (s : Size) (len : Nat) : Exec Nat := do
  let m ← subU t s.unit 1
  return len &&& m

/-- `Size::size` — src/lib.rs:421-423: `(count as usize) << self.0.trailing_zeros()`.
`count : u32` always fits `usize` on the modelled widths. -/
def size (t : Target) (s : Size) (count : Nat) : Exec Nat :=
  shlU t count (trailingZeros t s.unit)

/-- `Size::count` — src/lib.rs:442-444:
`(self.round(len) >> self.0.trailing_zeros()) as u32`. -/
def count (t : Target) (s : Size) (len : Nat) : Exec Nat := do
  let r ← s.round t len
  let q ← shrU t r (trailingZeros t s.unit)
  return asU32 q

/-- `Size::bounds` — src/lib.rs:453-456: `off = self.offset(ptr)`, result
`(ptr - off, self.round(len + off))`.  Pointer arithmetic is on addresses; `off ≤ ptr`
always holds, so the subtraction is exact. -/
def bounds (t : Target) (s : Size) (ptr len : Nat) : Exec (Nat × Nat) := do
  let off ← s.offset t ptr
  let sum ← addU t len off
  let n ← s.round t sum
  return (ptr - off, n)

end Size
end Vmap
