import Verif.Model.MapTests
import Verif.Model.WinSpan
/-
The tests of maps in the crate's own test suite (src/lib.rs:618-868) on Windows, as programs over the
model of the crate there.  They are those of Model/MapTests, with the same simplifications.
-/
namespace Vmap
namespace WinMapTests
open Doc (assert)
open WinDocMap (ask askConv on shows put)
open MapTests (hello one two)

/-- `assert_eq!(v, map.read_volatile(off))` with a `u64` — e.g. src/lib.rs:823. -/
def holds (t : Target) (abi : Abi) (k : WinFs) (m : MapMut) (off v : Nat) : Exec Unit := do
  let r ← WinSpan.readVolatile t abi k.win m.span .u64 off
  assert (v = r)

/-- `assert_eq!(v, map.read_unaligned(off))` with a `u64` — e.g. src/lib.rs:853. -/
def holdsAnywhere (t : Target) (abi : Abi) (k : WinFs) (m : MapMut) (off v : Nat) : Exec Unit := do
  let r ← WinSpan.readUnaligned t abi k.win m.span .u64 off
  assert (v = r)

/-- `map.write_volatile(off, v)` with a `u64` — e.g. src/lib.rs:826. -/
def writeVolatile (t : Target) (abi : Abi) (k : WinFs) (m : MapMut) (off v : Nat) : Exec WinFs := do
  return { k with win := (← WinSpan.writeVolatile t abi k.win m.span .u64 off v) }

/-- `map.write_unaligned(off, v)` with a `u64` — e.g. src/lib.rs:856. -/
def writeUnaligned (t : Target) (abi : Abi) (k : WinFs) (m : MapMut) (off v : Nat) : Exec WinFs := do
  return { k with win := (← WinSpan.writeUnaligned t abi k.win m.span .u64 off v) }

variable (tab : SysTable) (t : Target) (abi : Abi) (k : WinFs) (path : String)

/-- `alloc_min` — src/lib.rs:647-658. -/
def allocMin : Exec (WinFs × Result Unit) :=
  ask (on k (k.win.alloc t (Options.newMut.setLen (.min 100)))) fun k m => do
  let n ← k.win.sizeAlloc.round t 100
  assert (m.len = n)
  shows k m 0 5 (List.replicate 5 0)
  let k ← put k m hello
  shows k m 0 5 hello
  return (k, .ok ())

/-- `alloc_exact` — src/lib.rs:660-669. -/
def allocExact : Exec (WinFs × Result Unit) :=
  ask (on k (k.win.alloc t (Options.newMut.setLen (.exact 5)))) fun k m => do
  assert (m.len = 5)
  shows k m 0 m.len (List.replicate 5 0)
  let k ← put k m hello
  shows k m 0 m.len hello
  return (k, .ok ())

/-- `alloc_offset` — src/lib.rs:671-687.  Here `VirtualProtect` leaves the access of views alone, so that a
write of one more byte would not fault; in Model/WinGuard it does. -/
def allocOffset : Exec (WinFs × Result Unit) := do
  let unit ← k.win.sizeAlloc.size t 1
  let off ← subU t unit 5
  ask (on k (k.win.alloc t ((Options.newMut.setOffset off).setLen (.exact 6)))) fun k m => do
  ask (on k (.ok (k.win.protect (ptrAdd t m.ptr 5) 1 .readOnly))) fun k _ => do
  assert (m.len = 6)
  shows k m 0 m.len (List.replicate 6 0)
  let k ← put k m hello
  shows k m 0 m.len (hello ++ [0])
  return (k, .ok ())

/-- `read_end` — src/lib.rs:689-697. -/
def readEnd : Exec (WinFs × Result Unit) :=
  ask (k.open_ tab t (Options.new.setOffset 29) path) fun k (m, _) => do
  assert (30 ≤ m.len)
  let n ← subU t DocMap.about.length 29
  assert (n = m.len)
  shows k m 0 30 DocMap.fast
  return (k, .ok ())

/-- `read_min` — src/lib.rs:699-711. -/
def readMin : Exec (WinFs × Result Unit) :=
  ask (k.open_ tab t ((Options.new.setOffset 29).setLen (.min 30)) path) fun k (m, _) => do
  assert (30 ≤ m.len)
  let n ← subU t DocMap.about.length 29
  assert (n = m.len)
  shows k m 0 30 DocMap.fast
  return (k, .ok ())

/-- `read_max` — src/lib.rs:713-723. -/
def readMax : Exec (WinFs × Result Unit) :=
  ask (k.open_ tab t ((Options.new.setOffset 29).setLen (.max 30)) path) fun k (m, _) => do
  assert (m.len = 30)
  shows k m 0 m.len DocMap.fast
  return (k, .ok ())

/-- `read_exact` — src/lib.rs:725-732. -/
def readExact : Exec (WinFs × Result Unit) :=
  ask (k.open_ tab t ((Options.new.setOffset 29).setLen (.exact 30)) path) fun k (m, _) => do
  assert (m.len = 30)
  shows k m 0 m.len DocMap.fast
  return (k, .ok ())

/-- `copy` — src/lib.rs:734-748. -/
def copy : Exec (WinFs × Result Unit) :=
  ask (k.open_ tab t (((Options.newMut.setOffset 29).setLen (.exact 30)).copy) path) fun k (m, _) => do
  assert (m.len = 30)
  shows k m 0 m.len DocMap.fast
  let k ← put k m DocMap.nice
  shows k m 0 m.len (DocMap.nice ++ DocMap.fast.drop 4)
  return (k, .ok ())

/-- `write_into_mut` — src/lib.rs:750-776. -/
def writeIntoMut : Exec (WinFs × Result Unit) :=
  ask (k.open_ tab t (Options.new.write.setResize (.exact 16)) path) fun k (m, _) => do
  assert (16 = m.len)
  shows k m 0 14 DocMap.this
  shows k m 0 m.len (DocMap.this ++ [0, 0])
  askConv (on k (k.win.intoMapMut t ⟨m⟩)) fun k m => do
  let k ← put k m DocMap.that
  shows k m 0 14 (DocMap.that ++ DocMap.this.drop 4)
  shows k m 0 m.len (DocMap.that ++ DocMap.this.drop 4 ++ [0, 0])
  askConv (on k (k.win.intoMap t m)) fun k m => do
  shows k m.inner 0 14 (DocMap.that ++ DocMap.this.drop 4)
  shows k m.inner 0 m.inner.len (DocMap.that ++ DocMap.this.drop 4 ++ [0, 0])
  ask (k.open_ tab t Options.new path) fun k (m, _) => do
  assert (16 = m.len)
  shows k m 0 14 (DocMap.that ++ DocMap.this.drop 4)
  shows k m 0 m.len (DocMap.that ++ DocMap.this.drop 4 ++ [0, 0])
  return (k, .ok ())

/-- `truncate` — src/lib.rs:778-792. -/
def truncate : Exec (WinFs × Result Unit) :=
  ask (k.open_ tab t ((Options.new.write.setTruncate true).setResize (.exact 16)) path) fun k (m, _) => do
  assert (16 = m.len)
  shows k m 0 m.len (List.replicate 16 0)
  return (k, .ok ())

/-- `volatile` — src/lib.rs:810-838. -/
def volatile : Exec (WinFs × Result Unit) :=
  ask (k.open_ tab t (((Options.newMut.write.setTruncate true).create true).setResize (.exact 16)) path)
    fun k (m, _) => do
  assert (16 = m.len)
  holds t abi k m 0 0
  holds t abi k m 8 0
  let k ← writeVolatile t abi k m 0 one
  let k ← writeVolatile t abi k m 8 two
  holds t abi k m 0 one
  holds t abi k m 8 two
  ask (k.open_ tab t Options.new path) fun k (m, _) => do
  assert (16 = m.len)
  holds t abi k m 0 one
  holds t abi k m 8 two
  return (k, .ok ())

/-- `unaligned` — src/lib.rs:840-868. -/
def unaligned : Exec (WinFs × Result Unit) :=
  ask (k.open_ tab t (((Options.newMut.write.setTruncate true).create true).setResize (.exact 17)) path)
    fun k (m, _) => do
  assert (17 = m.len)
  holdsAnywhere t abi k m 1 0
  holdsAnywhere t abi k m 9 0
  let k ← writeUnaligned t abi k m 1 one
  let k ← writeUnaligned t abi k m 9 two
  holdsAnywhere t abi k m 1 one
  holdsAnywhere t abi k m 9 two
  ask (k.open_ tab t Options.new path) fun k (m, _) => do
  assert (17 = m.len)
  holdsAnywhere t abi k m 1 one
  holdsAnywhere t abi k m 9 two
  return (k, .ok ())

end WinMapTests
end Vmap
