import Verif.Model.Ring
import Verif.Model.Windows
import Verif.Model.Mach
/-
src/io/ring.rs — the constructors of the rings, on top of the Windows and the macOS layer.
(On the other platforms: `Ring.new` and `InfiniteRing.new` of Model/Ring.)
-/
namespace Vmap

/-- `Ring::new` on Windows — src/io/ring.rs:72-81 over `map_ring` of src/os/windows.rs:165-178. -/
def Win.ringNew (t : Target) (s : Win) (hint : Nat) : Exec (Win × Result Ring) := do
  let len ← s.sizeAlloc.round t hint
  match ← s.mapRing t len with
  | (s, .error e) => return (s, .error e)
  | (s, .ok ptr) => return (s, .ok { ptr, len, rpos := 0, wpos := 0 })

/-- `InfiniteRing::new` on Windows — src/io/ring.rs:233-242 over `map_ring` of
src/os/windows.rs:165-178. -/
def Win.infNew (t : Target) (s : Win) (hint : Nat) : Exec (Win × Result InfiniteRing) := do
  let len ← s.sizeAlloc.round t hint
  match ← s.mapRing t len with
  | (s, .error e) => return (s, .error e)
  | (s, .ok ptr) => return (s, .ok { ptr, len, rlen := 0, wpos := 0 })

/-- `Ring::new` on macOS — src/io/ring.rs:72-81 over `map_ring` of src/os/unix/mach.rs:79-131.
(`Size::alloc()` is the page size on Unix: src/os/unix/mod.rs:32-35.) -/
def Mach.ringNew (t : Target) (s : Mach) (hint : Nat) : Exec (Mach × Result Ring) := do
  let len ← (Size.withSize s.page).round t hint
  match ← s.mapRing t len with
  | (s, .error e) => return (s, .error e)
  | (s, .ok ptr) => return (s, .ok { ptr, len, rpos := 0, wpos := 0 })

/-- `InfiniteRing::new` on macOS — src/io/ring.rs:233-242 over `map_ring` of
src/os/unix/mach.rs:79-131. -/
def Mach.infNew (t : Target) (s : Mach) (hint : Nat) : Exec (Mach × Result InfiniteRing) := do
  let len ← (Size.withSize s.page).round t hint
  match ← s.mapRing t len with
  | (s, .error e) => return (s, .error e)
  | (s, .ok ptr) => return (s, .ok { ptr, len, rlen := 0, wpos := 0 })

end Vmap
