import Verif.Model.Span
import Verif.Model.WinDocMap
/-
`vmap::Span` and `vmap::SpanMut` (src/lib.rs:465-608) on Windows.  The code is that of Model/Span; only
the memory it reads and writes is that of a process on Windows.
-/
namespace Vmap
namespace WinSpan

/-- `Span::read_volatile` — src/lib.rs:486-490. -/
def readVolatile (t : Target) (abi : Abi) (s : Win) (sp : Span) (ty : Scalar) (offset : Nat) : Exec Nat := do
  assertCapacity t ty offset sp.len
  assertAlignment t abi ty offset sp.ptr
  let bs ← WinDocMap.loadN s (ptrAdd t sp.ptr offset) (ty.size t)
  return abi.decode bs

/-- `Span::read_unaligned` — src/lib.rs:494-497. -/
def readUnaligned (t : Target) (abi : Abi) (s : Win) (sp : Span) (ty : Scalar) (offset : Nat) : Exec Nat := do
  assertCapacity t ty offset sp.len
  let bs ← WinDocMap.loadN s (ptrAdd t sp.ptr offset) (ty.size t)
  return abi.decode bs

/-- `SpanMut::write_volatile` — src/lib.rs:512-516. -/
def writeVolatile (t : Target) (abi : Abi) (s : Win) (sp : Span) (ty : Scalar) (offset v : Nat) : Exec Win := do
  assertCapacity t ty offset sp.len
  assertAlignment t abi ty offset sp.ptr
  WinDocMap.storeN s (ptrAdd t sp.ptr offset) (abi.encode (ty.size t) v)

/-- `SpanMut::write_unaligned` — src/lib.rs:520-523. -/
def writeUnaligned (t : Target) (abi : Abi) (s : Win) (sp : Span) (ty : Scalar) (offset v : Nat) : Exec Win := do
  assertCapacity t ty offset sp.len
  WinDocMap.storeN s (ptrAdd t sp.ptr offset) (abi.encode (ty.size t) v)

end WinSpan
end Vmap
