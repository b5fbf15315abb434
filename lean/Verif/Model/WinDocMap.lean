import Verif.Model.WinFile
import Verif.Model.DocMap
/-
The example programs of the documentation of maps on Windows, as programs over the model of the crate
there.  They are those of Model/DocMap, with the same simplifications.
-/
namespace Vmap
namespace WinDocMap
open Doc (assert)
open DocMap (this that test nice about fast safe)

/-- `?` — e.g. src/lib.rs:47. -/
def ask {α β : Type} (x : Exec (WinFs × Result α)) (f : WinFs → α → Exec (WinFs × Result β)) :
    Exec (WinFs × Result β) :=
  match x with
  | .error e => .error e
  | .ok (k, .error e) => .ok (k, .error e)
  | .ok (k, .ok a) => f k a

/-- `?` after `into_map_mut` and `into_map`, whose error also has the map — src/lib.rs:79, 86.  The
map that comes back is dropped. -/
def askConv {α β γ : Type} (x : Exec (WinFs × ConvertResult α β))
    (f : WinFs → α → Exec (WinFs × Result γ)) : Exec (WinFs × Result γ) :=
  match x with
  | .error e => .error e
  | .ok (k, .error (e, _)) => .ok (k, .error e)
  | .ok (k, .ok a) => f k a

/-- A call that is about the process only — e.g. src/map.rs:252. -/
def on {α : Type} (k : WinFs) (x : Exec (Win × α)) : Exec (WinFs × α) := do
  let (s, a) ← x
  return ({ k with win := s }, a)

/-- Reading `n` bytes of memory — e.g. src/map.rs:32. -/
def loadN (s : Win) (a : Nat) : Nat → Exec (List Byte)
  | 0 => return []
  | n + 1 => do
    let b ← s.load a
    let bs ← loadN s (a + 1) n
    return b :: bs

/-- Writing some bytes to memory — e.g. src/lib.rs:80. -/
def storeN (s : Win) (a : Nat) : List Byte → Exec Win
  | [] => return s
  | b :: bs => do
    let s ← s.store a b
    storeN s (a + 1) bs

/-- `assert_eq!(text, &map[a..b])` — e.g. src/map.rs:32; `&map[..]` has `a = 0`, `b = map.len()`. -/
def shows (k : WinFs) (m : MapMut) (a b : Nat) (text : List Byte) : Exec Unit := do
  if a ≤ b ∧ b ≤ m.len then
    let bs ← loadN k.win (m.ptr + a) (b - a)
    assert (bs = text)
  else .error .panic

/-- `map[..n].clone_from_slice(text)` with a text of `n` bytes — e.g. src/lib.rs:80. -/
def put (k : WinFs) (m : MapMut) (text : List Byte) : Exec WinFs := do
  if text.length ≤ m.len then
    let s ← storeN k.win m.ptr text
    return { k with win := s }
  else .error .panic

/-- A map is dropped — e.g. src/map.rs:702. -/
def drop (t : Target) (k : WinFs) (m : MapMut) : Exec WinFs := do
  return { k with win := (← k.win.dropMap t m) }

variable (tab : SysTable) (t : Target) (k : WinFs) (path : String)

/-- Two regions of one file — src/lib.rs:46-52. -/
def regions : Exec (WinFs × Result Unit) :=
  ask (k.open_ tab t (Options.new.setLen (.exact 4)) path) fun k (m, fd) => do
  shows k m 0 m.len [116, 104, 105, 115]
  ask (k.map tab t ((Options.new.setOffset 10).setLen (.exact 4)) fd) fun k m => do
  shows k m 0 m.len test
  return (k, .ok ())

/-- Changing a file through a map — src/lib.rs:73-87. -/
def changes : Exec (WinFs × Result Unit) :=
  ask (k.open_ tab t (Options.new.write.setLen (.exact 14)) path) fun k (m, fd) => do
  shows k m 0 m.len this
  askConv (on k (k.win.intoMapMut t ⟨m⟩)) fun k m => do
  let k ← put k m that
  ask (on k (k.win.flushMap t m fd .sync)) fun k _ => do
  askConv (on k (k.win.intoMap t m)) fun k m => do
  shows k m.inner 0 m.inner.len (that ++ this.drop 4)
  return (k, .ok ())

/-- `Map` — src/map.rs:29-32. -/
def mapType : Exec (WinFs × Result Unit) :=
  ask (k.open_ tab t ((Options.new.setOffset 29).setLen (.exact 30)) path) fun k (m, _) => do
  ask (on k (k.win.adviseMap t m .sequential)) fun k _ => do
  shows k m 0 m.len fast
  shows k m 9 13 safe
  return (k, .ok ())

/-- `Map::with_options` — src/map.rs:59-63. -/
def withOptions : Exec (WinFs × Result Unit) :=
  ask (k.open_ tab t ((Options.new.setOffset 29).setLen (.exact 30)) path) fun k (m, _) => do
  shows k m 0 m.len fast
  return (k, .ok ())

/-- `Map::into_map_mut` — src/map.rs:92-97. -/
def intoMapMut : Exec (WinFs × Result Unit) :=
  ask (k.open_ tab t (Options.new.write.setLen (.exact 14)) path) fun k (m, _) => do
  shows k m 0 m.len this
  askConv (on k (k.win.intoMapMut t ⟨m⟩)) fun k m => do
  let k ← put k m that
  shows k m 0 m.len (that ++ this.drop 4)
  return (k, .ok ())

/-- `MapMut::with_options` — src/map.rs:222-231 (the result of `flush_range` is ignored there). -/
def withOptionsMut : Exec (WinFs × Result Unit) :=
  ask (k.open_ tab t ((Options.newMut.setOffset 29).setLen (.exact 30)) path) fun k (m, fd) => do
  shows k m 0 m.len fast
  let k ← put k m nice
  let (k, _) ← on k (k.win.flushRange t m fd 0 4 .sync)
  shows k m 0 m.len (nice ++ fast.drop 4)
  return (k, .ok ())

/-- `MapMut::new` — src/map.rs:250-252. -/
def newMap : Exec (WinFs × Result Unit) :=
  ask (on k (k.win.alloc t (Options.newMut.setLen (.min 200)))) fun k m => do
  let k ← put k m test
  shows k m 0 4 test
  return (k, .ok ())

/-- `MapMut::into_map` — src/map.rs:279-285. -/
def intoMap : Exec (WinFs × Result Unit) :=
  ask (k.open_ tab t (Options.newMut.setLen (.exact 14)) path) fun k (m, _) => do
  shows k m 0 m.len this
  let k ← put k m that
  askConv (on k (k.win.intoMap t m)) fun k m => do
  shows k m.inner 0 m.inner.len (that ++ this.drop 4)
  return (k, .ok ())

/-- `Options::write` — src/map.rs:543-547, for any file.  The first map comes back with the error and is
dropped there. -/
def write : Exec (WinFs × Result Unit) :=
  ask (k.open_ tab t Options.new path) fun k (m, _) => do
  let (k, r) ← on k (k.win.intoMapMut t ⟨m⟩)
  assert (match r with | .error _ => true | .ok _ => false)
  let k ← match r with
    | .error (_, m) => drop t k m.inner
    | .ok m => drop t k m
  ask (k.open_ tab t Options.new.write path) fun k (m, _) => do
  let (k, r) ← on k (k.win.intoMapMut t ⟨m⟩)
  assert (match r with | .error _ => false | .ok _ => true)
  return (k, .ok ())

/-- `Options::copy` — src/map.rs:575-581, for any file. -/
def copy : Exec (WinFs × Result Unit) :=
  ask (k.open_ tab t Options.newMut.copy path) fun k (m1, _) => do
  ask (k.open_ tab t Options.newMut.copy path) fun k (m2, _) => do
  let first ← k.win.get m1 0
  let s ← k.win.set m1 0 88
  assert (first = (← s.get m2 0))
  return ({ k with win := s }, .ok ())

/-- `Options::create` — src/map.rs:610-618. -/
def create : Exec (WinFs × Result Unit) :=
  ask (k.open_ tab t ((Options.newMut.create true).setResize (.exact 100)) path) fun k (m, _) => do
  assert (100 = m.len)
  shows k m 0 4 [0, 0, 0, 0]
  let k ← put k m test
  ask (k.open_ tab t Options.new path) fun k (m, _) => do
  assert (100 = m.len)
  shows k m 0 4 test
  return (k, .ok ())

/-- `Options::create_new` — src/map.rs:654-656. -/
def createNew : Exec (WinFs × Result Unit) :=
  ask (k.open_ tab t ((Options.newMut.createNew true).setResize (.exact 10)) path) fun k (m, _) => do
  assert (10 = m.len)
  let (k, r) ← k.open_ tab t (Options.newMut.createNew true) path
  assert (match r with | .error _ => true | .ok _ => false)
  return (k, .ok ())

/-- `Options::truncate` — src/map.rs:690-702.  At the end of the block the map is dropped and the
file closed. -/
def truncate : Exec (WinFs × Result Unit) :=
  ask (k.open_ tab t (((Options.newMut.create true).setTruncate true).setResize (.exact 4)) path)
    fun k (m, fd) => do
  shows k m 0 m.len [0, 0, 0, 0]
  let k ← put k m test
  shows k m 0 m.len test
  let k ← drop t (k.close fd) m
  ask (k.open_ tab t ((Options.newMut.setTruncate true).setResize (.exact 4)) path) fun k (m, _) => do
  shows k m 0 m.len [0, 0, 0, 0]
  return (k, .ok ())

/-- `Options::offset` — src/map.rs:735-736. -/
def offset : Exec (WinFs × Result Unit) :=
  ask (k.open_ tab t (Options.new.setOffset 10) path) fun k (m, _) => do
  shows k m 0 m.len test
  return (k, .ok ())

/-- `Options::len`, exact — src/map.rs:785-793. -/
def lenExact : Exec (WinFs × Result Unit) :=
  ask (k.open_ tab t (Options.new.setLen (.exact 4)) path) fun k (m, _) => do
  shows k m 0 m.len [116, 104, 105, 115]
  ask (on k (k.win.alloc t (Options.newMut.setLen (.exact 4)))) fun k m => do
  assert (4 = m.len)
  return (k, .ok ())

/-- `Options::len`, minimum — src/map.rs:820-838. -/
def lenMin : Exec (WinFs × Result Unit) :=
  ask (k.open_ tab t ((Options.new.setOffset 5).setLen (.min 4)) path) fun k (m, _) => do
  assert (9 = m.len)
  shows k m 0 m.len (this.drop 5)
  ask (k.openIf tab t (Options.new.setLen (.min 100)) path) fun k (m, _) => do
  assert m.isNone
  ask (on k (k.win.alloc t (Options.newMut.setLen (.min 2000)))) fun k m => do
  assert ((← k.win.sizeAlloc.size t 1) = m.len)
  return (k, .ok ())

/-- `Options::len`, maximum — src/map.rs:861-871. -/
def lenMax : Exec (WinFs × Result Unit) :=
  ask (k.open_ tab t ((Options.new.setOffset 5).setLen (.max 100)) path) fun k (m, _) => do
  assert (9 = m.len)
  shows k m 0 m.len (this.drop 5)
  ask (on k (k.win.alloc t (Options.newMut.setLen (.max 2000)))) fun k m => do
  assert (2000 = m.len)
  return (k, .ok ())

/-- `Options::resize`, exact — src/map.rs:929-934. -/
def resizeExact : Exec (WinFs × Result Unit) :=
  ask (k.open_ tab t (Options.new.write.setResize (.exact 7)) path) fun k (m, _) => do
  assert (7 = m.len)
  shows k m 0 m.len (this.take 7)
  return (k, .ok ())

/-- `Options::resize`, minimum, each of the two halves — src/map.rs:958-965 and 969-974 — for a file
of `text` and the length and text it is to have. -/
def resizeMin (want : List Byte) : Exec (WinFs × Result Unit) :=
  ask (k.open_ tab t (Options.new.write.setResize (.min 7)) path) fun k (m, _) => do
  assert (want.length = m.len)
  shows k m 0 m.len want
  return (k, .ok ())

/-- `Options::resize`, maximum, each of the two halves — src/map.rs:997-1004 and 1008-1013. -/
def resizeMax (want : List Byte) : Exec (WinFs × Result Unit) :=
  ask (k.open_ tab t (Options.new.write.setResize (.max 7)) path) fun k (m, _) => do
  assert (want.length = m.len)
  shows k m 0 m.len want
  return (k, .ok ())

/-- The map of a result that is not kept is dropped, and the file closed — src/map.rs:1057, 1095. -/
def dropped (k : WinFs) (r : Result (MapMut × Nat)) : Exec WinFs :=
  match r with
  | .ok (m, fd) => drop t (k.close fd) m
  | .error _ => return k

/-- `Options::open` — src/map.rs:1057-1058. -/
def opening : Exec (WinFs × Result Unit) := do
  let (k, r) ← k.open_ tab t (Options.new.setLen (.exact 4)) path
  assert (match r with | .error _ => false | .ok _ => true)
  let k ← dropped t k r
  let (k, r) ← k.open_ tab t (Options.new.setLen (.exact 25)) path
  assert (match r with | .error _ => true | .ok _ => false)
  return (k, .ok ())

/-- `Options::open_if` — src/map.rs:1095-1099. -/
def openingIf : Exec (WinFs × Result Unit) := do
  let (k, r) ← k.openIf tab t (Options.new.setLen (.exact 4)) path
  assert (match r with | .error _ => false | .ok _ => true)
  let k ← match r with
    | .ok (some m, fd) => dropped t k (.ok (m, fd))
    | .ok (none, fd) => pure (k.close fd)
    | .error _ => pure k
  let (k, r) ← k.openIf tab t (Options.new.setLen (.exact 25)) path
  assert (match r with | .error _ => false | .ok _ => true)
  assert (match r with | .error _ => false | .ok (m, _) => m.isNone)
  return (k, .ok ())

/-- `Options::map`, after the file was opened for reading and writing and made 8 bytes long —
src/map.rs:1136-1137. -/
def mapping (fd : Nat) : Exec (WinFs × Result Unit) := do
  let (k, r) ← k.map tab t (Options.new.setLen (.exact 4)) fd
  assert (match r with | .error _ => false | .ok _ => true)
  let k ← match r with
    | .ok m => drop t k m
    | .error _ => pure k
  let (k, r) ← k.map tab t (Options.new.setLen (.exact 25)) fd
  assert (match r with | .error _ => true | .ok _ => false)
  return (k, .ok ())

/-- `Options::map_if`, after the same — src/map.rs:1172-1176. -/
def mappingIf (fd : Nat) : Exec (WinFs × Result Unit) := do
  let (k, r) ← k.mapIf tab t (Options.new.setLen (.exact 4)) fd
  assert (match r with | .error _ => false | .ok _ => true)
  let k ← match r with
    | .ok (some m) => drop t k m
    | _ => pure k
  let (k, r) ← k.mapIf tab t (Options.new.setLen (.exact 25)) fd
  assert (match r with | .error _ => false | .ok _ => true)
  assert (match r with | .error _ => false | .ok m => m.isNone)
  return (k, .ok ())

/-- `Options::alloc` — src/map.rs:1225-1226. -/
def alloc : Exec (WinFs × Result Unit) :=
  ask (on k (k.win.alloc t (Options.newMut.setLen (.min 500)))) fun k m => do
  assert (m.len ≥ 500)
  return (k, .ok ())

end WinDocMap
end Vmap
