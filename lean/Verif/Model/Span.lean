import Verif.Model.Map
/-
`vmap::Span`, `vmap::SpanMut` — src/lib.rs:465-608.
-/
namespace Vmap

/-- The types that implement `sealed::Scalar` — src/lib.rs:569-584. -/
inductive Scalar
  | u8 | i8 | u16 | i16 | u32 | i32 | u64 | i64 | u128 | i128 | usize | isize | f32 | f64
  deriving DecidableEq, Repr

/-- `mem::size_of::<T>()`.  src/lib.rs:601. -/
def Scalar.size (t : Target) : Scalar → Nat
  | .u8 | .i8 => 1
  | .u16 | .i16 => 2
  | .u32 | .i32 | .f32 => 4
  | .u64 | .i64 | .f64 => 8
  | .u128 | .i128 => 16
  | .usize | .isize => t.width.bits / 8

/-- What differs between processors: byte order and `mem::align_of::<T>()`.
Environment of src/lib.rs:486-523. -/
structure Abi where
  bigEndian : Bool
  align : Scalar → Nat

/-- The `n` bytes of `v`, least significant first.  Environment of src/lib.rs:486-523. -/
def leBytes : Nat → Nat → List Byte
  | 0, _ => []
  | n + 1, v => UInt8.ofNat (v % 256) :: leBytes n (v / 256)

/-- The value of bytes, least significant first.  Environment of src/lib.rs:486-523. -/
def ofLeBytes : List Byte → Nat
  | [] => 0
  | b :: bs => b.toNat + 256 * ofLeBytes bs

/-- The memory representation of a scalar of `n` bytes with bit pattern `v` (two's complement
and IEEE 754 patterns for signed and floating-point types).
Environment of src/lib.rs:512-523. -/
def Abi.encode (abi : Abi) (n v : Nat) : List Byte :=
  if abi.bigEndian then (leBytes n v).reverse else leBytes n v

/-- The bit pattern that memory `bs` represents.  Environment of src/lib.rs:486-497. -/
def Abi.decode (abi : Abi) (bs : List Byte) : Nat :=
  if abi.bigEndian then ofLeBytes bs.reverse else ofLeBytes bs

/-- `assert_alignment` — src/lib.rs:588-597. -/
def assertAlignment (t : Target) (abi : Abi) (ty : Scalar) (offset ptr : Nat) : Exec Unit :=
  if ptrAdd t ptr offset % abi.align ty ≠ 0 then .error .panic else .ok ()

/-- `assert_capacity` — src/lib.rs:600-608. -/
def assertCapacity (t : Target) (ty : Scalar) (offset len : Nat) : Exec Unit := do
  let e ← addU t offset (ty.size t)
  if e > len then .error .panic else .ok ()

/-- A `Span`: `Map` (src/map.rs:146-156), `MapMut` (390-400), `&[u8]` and `&mut [u8]`
(src/lib.rs:526-555) are all a pointer and a length. -/
structure Span where
  ptr : Nat
  len : Nat
  deriving DecidableEq, Repr

/-- `impl Span for MapMut` — src/map.rs:390-400. -/
def MapMut.span (m : MapMut) : Span := ⟨m.ptr, m.len⟩
/-- `impl Span for Map` — src/map.rs:146-156. -/
def Map.span (m : Map) : Span := ⟨m.inner.ptr, m.inner.len⟩

namespace Span

/-- `Span::is_empty` — src/lib.rs:475-478. -/
def isEmpty (s : Span) : Bool := s.len == 0

/-- `Span::read_volatile` — src/lib.rs:486-490. -/
def readVolatile (t : Target) (abi : Abi) (k : Kernel) (s : Span) (ty : Scalar)
    (offset : Nat) : Exec Nat := do
  assertCapacity t ty offset s.len
  assertAlignment t abi ty offset s.ptr
  let bs ← k.loadN (ptrAdd t s.ptr offset) (ty.size t)
  return abi.decode bs

/-- `Span::read_unaligned` — src/lib.rs:494-497. -/
def readUnaligned (t : Target) (abi : Abi) (k : Kernel) (s : Span) (ty : Scalar)
    (offset : Nat) : Exec Nat := do
  assertCapacity t ty offset s.len
  let bs ← k.loadN (ptrAdd t s.ptr offset) (ty.size t)
  return abi.decode bs

/-- `SpanMut::write_volatile` — src/lib.rs:512-516. -/
def writeVolatile (t : Target) (abi : Abi) (k : Kernel) (s : Span) (ty : Scalar)
    (offset v : Nat) : Exec Kernel := do
  assertCapacity t ty offset s.len
  assertAlignment t abi ty offset s.ptr
  k.storeN (ptrAdd t s.ptr offset) (abi.encode (ty.size t) v)

/-- `SpanMut::write_unaligned` — src/lib.rs:520-523. -/
def writeUnaligned (t : Target) (abi : Abi) (k : Kernel) (s : Span) (ty : Scalar)
    (offset v : Nat) : Exec Kernel := do
  assertCapacity t ty offset s.len
  k.storeN (ptrAdd t s.ptr offset) (abi.encode (ty.size t) v)

end Span
end Vmap
