import Verif.Model.MapTests
import Verif.Model.WinDocMap
import Verif.Model.WindowsMap
/-
Page protections on Windows: what `VirtualProtect` (src/os/windows.rs:239) does to the pages for which it
is granted.  Model/Windows leaves the access of views alone, since maps themselves only ever ask for
read and write access; here a program may also take write access away with `os::protect`.
-/
namespace Vmap

/-- A process with the pages (by number) that `VirtualProtect` has made read-only.
Environment of src/os/windows.rs:231-244. -/
structure WinGuard where
  win : Win
  barred : Nat → Bool

namespace WinGuard

/-- Does `os::protect` with this argument leave the pages writable?  (`PAGE_READONLY` and
`PAGE_EXECUTE_READ` do not; `PAGE_READWRITE` does, as far as the view allows it.)
Environment of src/os/windows.rs:232-237. -/
def bars (prot : Protect) : Bool :=
  match Win.protectBits prot with
  | .readonly => true
  | .executeRead => true
  | .readwrite => false
  | .writecopy => false

/-- `protect` — src/os/windows.rs:231-244: if it is granted, all pages that contain a byte of the range get
the protection, the others keep theirs. -/
def protect (g : WinGuard) (pg len : Nat) (prot : Protect) : WinGuard × Result Unit :=
  match g.win.protect pg len prot with
  | (s, .error e) => (⟨s, g.barred⟩, .error e)
  | (s, .ok ()) => (⟨s, fun q => if (g.win.pagesOf pg len).contains q then bars prot else g.barred q⟩, .ok ())

/-- A call of the crate other than `protect`: pages of views that are there no longer lose their
protection with them; new views are not protected.  Environment of src/os/windows.rs:56-63,152. -/
def call {α : Type} (g : WinGuard) (f : Win → Exec (Win × α)) : Exec (WinGuard × α) := do
  let (s, a) ← f g.win
  return (⟨s, fun q => g.barred q && g.win.views.any (fun v => v.onPage g.win.page q && s.views.contains v)⟩, a)

/-- Reading a byte of memory; all protections that the crate asks for allow it.
Environment of src/map.rs:420-427. -/
def load (g : WinGuard) (a : Nat) : Exec Byte := g.win.load a

/-- Writing a byte of memory.  Environment of src/map.rs:429-434. -/
def store (g : WinGuard) (a : Nat) (b : Byte) : Exec WinGuard :=
  if g.barred (a / g.win.page) then .error .memory
  else do
    let s ← g.win.store a b
    return { g with win := s }

/-- Writing some bytes to memory — e.g. src/lib.rs:680. -/
def storeN (g : WinGuard) (a : Nat) : List Byte → Exec WinGuard
  | [] => return g
  | b :: bs => do
    let g ← g.store a b
    g.storeN (a + 1) bs

/-- Reading `n` bytes of memory — e.g. src/lib.rs:679. -/
def loadN (g : WinGuard) (a : Nat) : Nat → Exec (List Byte)
  | 0 => return []
  | n + 1 => do
    let b ← g.load a
    let bs ← g.loadN (a + 1) n
    return b :: bs

/-- `assert_eq!(Ok(text), from_utf8(&map[..]))` — e.g. src/lib.rs:679; the texts are UTF-8. -/
def shows (g : WinGuard) (m : MapMut) (text : List Byte) : Exec Unit := do
  let bs ← g.loadN m.ptr m.len
  Doc.assert (bs = text)

/-- `map[..n].clone_from_slice(text)` with a text of `n` bytes — src/lib.rs:681. -/
def put (g : WinGuard) (m : MapMut) (text : List Byte) : Exec WinGuard :=
  if text.length ≤ m.len then g.storeN m.ptr text else .error .panic

/-- `MapMut::into_map` — src/map.rs:289-295 (it asks for `Protect::ReadWrite`). -/
def intoMap (t : Target) (g : WinGuard) (m : MapMut) : Exec (WinGuard × ConvertResult Map MapMut) := do
  let (ptr, len) ← g.win.sizePage.bounds t m.ptr m.len
  match g.protect ptr len .readWrite with
  | (g, .ok ()) => return (g, .ok ⟨m⟩)
  | (g, .error err) => return (g, .error (err, m))

/-- `Map::into_map_mut` — src/map.rs:101-107. -/
def intoMapMut (t : Target) (g : WinGuard) (m : Map) : Exec (WinGuard × ConvertResult MapMut Map) := do
  let (ptr, len) ← g.win.sizePage.bounds t m.inner.ptr m.inner.len
  match g.protect ptr len .readWrite with
  | (g, .ok ()) => return (g, .ok m.inner)
  | (g, .error err) => return (g, .error (err, m))

/-- `alloc_offset` — src/lib.rs:671-687, with the text that is written as an argument (it is `hello` in the
test; the remark there says that one more byte would fault). -/
def allocOffset (t : Target) (g : WinGuard) (text : List Byte) : Exec (WinGuard × Result Unit) := do
  let unit ← g.win.sizeAlloc.size t 1
  let off ← subU t unit 5
  match ← g.call (fun s => s.alloc t ((Options.newMut.setOffset off).setLen (.exact 6))) with
  | (g, .error e) => return (g, .error e)
  | (g, .ok m) =>
    match g.protect (ptrAdd t m.ptr 5) 1 .readOnly with
    | (g, .error e) => return (g, .error e)
    | (g, .ok ()) =>
      Doc.assert (m.len = 6)
      shows g m (List.replicate 6 0)
      let g ← put g m text
      shows g m (MapTests.hello ++ [0])
      return (g, .ok ())

/-- What a program does with memory it has — src/os/windows.rs:231-244 and src/map.rs:420-434. -/
inductive Act
  | protect (pg len : Nat) (prot : Protect)
  | load (a : Nat)
  | store (a : Nat) (b : Byte)
  deriving DecidableEq, Repr

/-- Running such a program until the first fault; the result also has its calls of `os::protect`, latest
first, and whether they were granted.  Environment of src/os/windows.rs:231-244. -/
def run (g : WinGuard) (asked : List (Nat × Nat × Protect × Bool)) :
    List Act → Exec (WinGuard × List (Nat × Nat × Protect × Bool))
  | [] => return (g, asked)
  | .protect pg len prot :: as =>
    let (g, r) := g.protect pg len prot
    g.run ((pg, len, prot, match r with | .ok _ => true | .error _ => false) :: asked) as
  | .load a :: as => do
    let _ ← g.load a
    g.run asked as
  | .store a b :: as => do
    let g ← g.store a b
    g.run asked as

end WinGuard
end Vmap
