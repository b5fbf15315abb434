import Verif.Model.Map
/-
src/map.rs — the ways to look at a map as a slice, and conversions between `Map` and `MapMut`
through traits.
-/
namespace Vmap

/-- `&[u8]` or `&mut [u8]` (std): where it begins and how many bytes it has.
Environment of src/map.rs:161-164. -/
structure Slice where
  ptr : Nat
  len : Nat
  deriving DecidableEq, Repr

namespace Slice

/-- `s[i]`, with std's bounds check.  Environment of src/map.rs:161-164. -/
def get (k : Kernel) (s : Slice) (i : Nat) : Exec Byte :=
  if i < s.len then k.load (s.ptr + i) else .error .panic

/-- `s[i] = b`, with std's bounds check.  Environment of src/map.rs:431-433. -/
def set (k : Kernel) (s : Slice) (i : Nat) (b : Byte) : Exec Kernel :=
  if i < s.len then k.store (s.ptr + i) b else .error .panic

end Slice

namespace MapMut

/-- `Span::len` for `MapMut` — src/map.rs:392-394. -/
def spanLen (m : MapMut) : Nat := m.len
/-- `Span::as_ptr` for `MapMut` — src/map.rs:397-399. -/
def asPtr (m : MapMut) : Nat := m.ptr
/-- `SpanMut::as_mut_ptr` for `MapMut` — src/map.rs:404-406. -/
def asMutPtr (m : MapMut) : Nat := m.ptr
/-- `Deref::deref` for `MapMut` — src/map.rs:424-426. -/
def deref (m : MapMut) : Slice := ⟨m.ptr, m.len⟩
/-- `DerefMut::deref_mut` for `MapMut` — src/map.rs:431-433. -/
def derefMut (m : MapMut) : Slice := ⟨m.ptr, m.len⟩
/-- `AsRef::as_ref` for `MapMut` — src/map.rs:441-443. -/
def asRef (m : MapMut) : Slice := m.deref
/-- `AsMut::as_mut` for `MapMut` — src/map.rs:451-453. -/
def asMut (m : MapMut) : Slice := m.derefMut

end MapMut

namespace Map

/-- `Span::len` for `Map` — src/map.rs:148-150. -/
def spanLen (m : Map) : Nat := m.inner.spanLen
/-- `Span::as_ptr` for `Map` — src/map.rs:153-155. -/
def asPtr (m : Map) : Nat := m.inner.asPtr
/-- `Deref::deref` for `Map` — src/map.rs:162-164. -/
def deref (m : Map) : Slice := ⟨m.inner.ptr, m.inner.len⟩
/-- `AsRef::as_ref` for `Map` — src/map.rs:172-174. -/
def asRef (m : Map) : Slice := m.deref

/-- `Map::try_from(map_mut)` — src/map.rs:177-183. -/
def tryFrom (t : Target) (k : Kernel) (m : MapMut) : Exec (Kernel × ConvertResult Map MapMut) :=
  m.intoMap t k

/-- `map.into_map_mut()?` in a function that returns `vmap::Result` — src/map.rs:101-107, and
src/error.rs:19-28: `From<(Error, F)>` takes the error out of the pair and drops the map. -/
def intoMapMutQ (t : Target) (k : Kernel) (m : Map) : Exec (Kernel × Result MapMut) := do
  let (k, r) ← m.intoMapMut t k
  match r with
  | .ok m => return (k, .ok m)
  | .error (e, m) =>
    let k ← m.drop t k
    return (k, .error (Error.ofConvert (e, m)))

end Map

namespace MapMut

/-- `MapMut::try_from(map)` — src/map.rs:456-462. -/
def tryFrom (t : Target) (k : Kernel) (m : Map) : Exec (Kernel × ConvertResult MapMut Map) :=
  m.intoMapMut t k

/-- `map.into_map()?` in a function that returns `vmap::Result` — src/map.rs:289-295, and
src/error.rs:19-28. -/
def intoMapQ (t : Target) (k : Kernel) (m : MapMut) : Exec (Kernel × Result Map) := do
  let (k, r) ← m.intoMap t k
  match r with
  | .ok m => return (k, .ok m)
  | .error (e, m) =>
    let k ← m.drop t k
    return (k, .error (Error.ofConvert (e, m)))

end MapMut

/-- `impl From<usize> for Extent` — src/lib.rs:225-229: `.len(30)` is `.len(Extent::Exact(30))`. -/
def Extent.ofNat (n : Nat) : Extent := .exact n

/-- `Map::with_options` — src/map.rs:67-69. -/
def Map.withOptions : Options := Options.new

/-- `impl Default for Options` — src/map.rs:1242-1247. -/
def Options.default : Options := Options.new

end Vmap
