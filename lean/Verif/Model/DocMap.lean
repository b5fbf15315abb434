import Verif.Model.Span
import Verif.Model.Doc
/-
The example programs of the documentation of maps, as programs over the model of the crate.  A
failing `assert!` is a panic; `?` returns the error.  What happens when `main` returns (maps and
files are dropped) is left out.  `path` is the file named by the hidden `tmp.path().join("example")`;
an example that begins by writing a text to the file starts here with a file that has it.  Texts are
ASCII, so `from_utf8` of some bytes is `Ok` of a text exactly if the bytes are those of the text.
-/
namespace Vmap
namespace DocMap
open Doc (assert)

/-- `?` — e.g. src/lib.rs:47. -/
def ask {α β : Type} (x : Exec (Kernel × Result α)) (f : Kernel → α → Exec (Kernel × Result β)) :
    Exec (Kernel × Result β) :=
  match x with
  | .error e => .error e
  | .ok (k, .error e) => .ok (k, .error e)
  | .ok (k, .ok a) => f k a

/-- `?` after `into_map_mut` and `into_map`, whose error also has the map — src/lib.rs:79, 86.  The
map that comes back is dropped. -/
def askConv {α β γ : Type} (x : Exec (Kernel × ConvertResult α β))
    (f : Kernel → α → Exec (Kernel × Result γ)) : Exec (Kernel × Result γ) :=
  match x with
  | .error e => .error e
  | .ok (k, .error (e, _)) => .ok (k, .error e)
  | .ok (k, .ok a) => f k a

/-- `assert_eq!(text, &map[a..b])` — e.g. src/map.rs:32; `&map[..]` has `a = 0`, `b = map.len()`. -/
def shows (k : Kernel) (m : MapMut) (a b : Nat) (text : List Byte) : Exec Unit := do
  if a ≤ b ∧ b ≤ m.len then
    let bs ← k.loadN (m.ptr + a) (b - a)
    assert (bs = text)
  else .error .panic

/-- `map[..n].clone_from_slice(text)` with a text of `n` bytes — e.g. src/lib.rs:80. -/
def put (k : Kernel) (m : MapMut) (text : List Byte) : Exec Kernel :=
  if text.length ≤ m.len then k.storeN m.ptr text else .error .panic

/-- "this is a test" — src/lib.rs:44. -/
def this : List Byte := [116, 104, 105, 115, 32, 105, 115, 32, 97, 32, 116, 101, 115, 116]

/-- "that" — src/lib.rs:80. -/
def that : List Byte := [116, 104, 97, 116]

/-- "test" — src/lib.rs:52. -/
def test : List Byte := [116, 101, 115, 116]

/-- "nice" — src/map.rs:227. -/
def nice : List Byte := [110, 105, 99, 101]

/-- "A cross-platform library for fast and safe memory-mapped IO in Rust" — src/map.rs:28. -/
def about : List Byte := [65, 32, 99, 114, 111, 115, 115, 45, 112, 108, 97, 116, 102, 111, 114, 109, 32,
  108, 105, 98, 114, 97, 114, 121, 32, 102, 111, 114, 32, 102, 97, 115, 116, 32, 97, 110, 100, 32, 115,
  97, 102, 101, 32, 109, 101, 109, 111, 114, 121, 45, 109, 97, 112, 112, 101, 100, 32, 73, 79, 32, 105,
  110, 32, 82, 117, 115, 116]

/-- "fast and safe memory-mapped IO" — src/map.rs:31. -/
def fast : List Byte := [102, 97, 115, 116, 32, 97, 110, 100, 32, 115, 97, 102, 101, 32, 109, 101, 109,
  111, 114, 121, 45, 109, 97, 112, 112, 101, 100, 32, 73, 79]

/-- "safe" — src/map.rs:32. -/
def safe : List Byte := [115, 97, 102, 101]

variable (tab : SysTable) (t : Target) (k : Kernel) (path : String)

/-- Two regions of one file — src/lib.rs:46-52. -/
def regions : Exec (Kernel × Result Unit) :=
  ask ((Options.new.setLen (.exact 4)).open_ tab t k path) fun k (m, fd) => do
  shows k m 0 m.len [116, 104, 105, 115]
  ask (((Options.new.setOffset 10).setLen (.exact 4)).map tab t k fd) fun k m => do
  shows k m 0 m.len test
  return (k, .ok ())

/-- Changing a file through a map — src/lib.rs:73-87. -/
def changes : Exec (Kernel × Result Unit) :=
  ask ((Options.new.write.setLen (.exact 14)).open_ tab t k path) fun k (m, _) => do
  shows k m 0 m.len this
  askConv ((Map.mk m).intoMapMut t k) fun k m => do
  let k ← put k m that
  ask (m.flush t k .sync) fun k _ => do
  askConv (m.intoMap t k) fun k m => do
  shows k m.inner 0 m.inner.len (that ++ this.drop 4)
  return (k, .ok ())

/-- `Map` — src/map.rs:29-32. -/
def mapType : Exec (Kernel × Result Unit) :=
  ask (((Options.new.setOffset 29).setLen (.exact 30)).open_ tab t k path) fun k (m, _) => do
  ask ((Map.mk m).advise t k .sequential) fun k _ => do
  shows k m 0 m.len fast
  shows k m 9 13 safe
  return (k, .ok ())

/-- `Map::with_options` — src/map.rs:59-63. -/
def withOptions : Exec (Kernel × Result Unit) :=
  ask (((Options.new.setOffset 29).setLen (.exact 30)).open_ tab t k path) fun k (m, _) => do
  shows k m 0 m.len fast
  return (k, .ok ())

/-- `Map::into_map_mut` — src/map.rs:92-97. -/
def intoMapMut : Exec (Kernel × Result Unit) :=
  ask ((Options.new.write.setLen (.exact 14)).open_ tab t k path) fun k (m, _) => do
  shows k m 0 m.len this
  askConv ((Map.mk m).intoMapMut t k) fun k m => do
  let k ← put k m that
  shows k m 0 m.len (that ++ this.drop 4)
  return (k, .ok ())

/-- `MapMut::with_options` — src/map.rs:222-231 (the result of `flush_range` is ignored there). -/
def withOptionsMut : Exec (Kernel × Result Unit) :=
  ask (((Options.newMut.setOffset 29).setLen (.exact 30)).open_ tab t k path) fun k (m, _) => do
  shows k m 0 m.len fast
  let k ← put k m nice
  let (k, _) ← m.flushRange t k 0 4 .sync
  shows k m 0 m.len (nice ++ fast.drop 4)
  return (k, .ok ())

/-- `MapMut::new` — src/map.rs:250-252. -/
def newMap : Exec (Kernel × Result Unit) :=
  ask (MapMut.new t k 200) fun k m => do
  let k ← put k m test
  shows k m 0 4 test
  return (k, .ok ())

/-- `MapMut::into_map` — src/map.rs:279-285. -/
def intoMap : Exec (Kernel × Result Unit) :=
  ask ((Options.newMut.setLen (.exact 14)).open_ tab t k path) fun k (m, _) => do
  shows k m 0 m.len this
  let k ← put k m that
  askConv (m.intoMap t k) fun k m => do
  shows k m.inner 0 m.inner.len (that ++ this.drop 4)
  return (k, .ok ())

/-- `Options::write` — src/map.rs:543-547, for any file.  The first map comes back with the error and is
dropped there. -/
def write : Exec (Kernel × Result Unit) :=
  ask (Options.new.open_ tab t k path) fun k (m, _) => do
  let (k, r) ← (Map.mk m).intoMapMut t k
  assert (match r with | .error _ => true | .ok _ => false)
  let k ← match r with
    | .error (_, m) => m.inner.drop t k
    | .ok m => m.drop t k
  ask (Options.new.write.open_ tab t k path) fun k (m, _) => do
  let (k, r) ← (Map.mk m).intoMapMut t k
  assert (match r with | .error _ => false | .ok _ => true)
  return (k, .ok ())

/-- `Options::copy` — src/map.rs:575-581, for any file. -/
def copy : Exec (Kernel × Result Unit) :=
  ask (Options.newMut.copy.open_ tab t k path) fun k (m1, _) => do
  ask (Options.newMut.copy.open_ tab t k path) fun k (m2, _) => do
  let first ← m1.get k 0
  let k ← m1.set k 0 88
  assert (first = (← m2.get k 0))
  return (k, .ok ())

/-- `Options::create` — src/map.rs:610-618. -/
def create : Exec (Kernel × Result Unit) :=
  ask (((Options.newMut.create true).setResize (.exact 100)).open_ tab t k path) fun k (m, _) => do
  assert (100 = m.len)
  shows k m 0 4 [0, 0, 0, 0]
  let k ← put k m test
  ask (Options.new.open_ tab t k path) fun k (m, _) => do
  assert (100 = m.len)
  shows k m 0 4 test
  return (k, .ok ())

/-- `Options::create_new` — src/map.rs:654-656. -/
def createNew : Exec (Kernel × Result Unit) :=
  ask (((Options.newMut.createNew true).setResize (.exact 10)).open_ tab t k path) fun k (m, _) => do
  assert (10 = m.len)
  let (k, r) ← (Options.newMut.createNew true).open_ tab t k path
  assert (match r with | .error _ => true | .ok _ => false)
  return (k, .ok ())

/-- `Options::truncate` — src/map.rs:690-702.  At the end of the block the map is dropped and the
file closed. -/
def truncate : Exec (Kernel × Result Unit) :=
  ask ((((Options.newMut.create true).setTruncate true).setResize (.exact 4)).open_ tab t k path)
    fun k (m, fd) => do
  shows k m 0 m.len [0, 0, 0, 0]
  let k ← put k m test
  shows k m 0 m.len test
  let k ← m.drop t (k.close fd)
  ask (((Options.newMut.setTruncate true).setResize (.exact 4)).open_ tab t k path) fun k (m, _) => do
  shows k m 0 m.len [0, 0, 0, 0]
  return (k, .ok ())

/-- `Options::offset` — src/map.rs:735-736. -/
def offset : Exec (Kernel × Result Unit) :=
  ask ((Options.new.setOffset 10).open_ tab t k path) fun k (m, _) => do
  shows k m 0 m.len test
  return (k, .ok ())

/-- `Options::len`, exact — src/map.rs:785-793. -/
def lenExact : Exec (Kernel × Result Unit) :=
  ask ((Options.new.setLen (.exact 4)).open_ tab t k path) fun k (m, _) => do
  shows k m 0 m.len [116, 104, 105, 115]
  ask ((Options.newMut.setLen (.exact 4)).alloc t k) fun k m => do
  assert (4 = m.len)
  return (k, .ok ())

/-- `Options::len`, minimum — src/map.rs:820-838. -/
def lenMin : Exec (Kernel × Result Unit) :=
  ask (((Options.new.setOffset 5).setLen (.min 4)).open_ tab t k path) fun k (m, _) => do
  assert (9 = m.len)
  shows k m 0 m.len (this.drop 5)
  ask ((Options.new.setLen (.min 100)).openIf tab t k path) fun k (m, _) => do
  assert m.isNone
  ask ((Options.newMut.setLen (.min 2000)).alloc t k) fun k m => do
  assert ((← (Size.alloc k).size t 1) = m.len)
  return (k, .ok ())

/-- `Options::len`, maximum — src/map.rs:861-871. -/
def lenMax : Exec (Kernel × Result Unit) :=
  ask (((Options.new.setOffset 5).setLen (.max 100)).open_ tab t k path) fun k (m, _) => do
  assert (9 = m.len)
  shows k m 0 m.len (this.drop 5)
  ask ((Options.newMut.setLen (.max 2000)).alloc t k) fun k m => do
  assert (2000 = m.len)
  return (k, .ok ())

/-- `Options::resize`, exact — src/map.rs:929-934. -/
def resizeExact : Exec (Kernel × Result Unit) :=
  ask ((Options.new.write.setResize (.exact 7)).open_ tab t k path) fun k (m, _) => do
  assert (7 = m.len)
  shows k m 0 m.len (this.take 7)
  return (k, .ok ())

/-- `Options::resize`, minimum, each of the two halves — src/map.rs:958-965 and 969-974 — for a file
of `text` and the length and text it is to have. -/
def resizeMin (want : List Byte) : Exec (Kernel × Result Unit) :=
  ask ((Options.new.write.setResize (.min 7)).open_ tab t k path) fun k (m, _) => do
  assert (want.length = m.len)
  shows k m 0 m.len want
  return (k, .ok ())

/-- `Options::resize`, maximum, each of the two halves — src/map.rs:997-1004 and 1008-1013. -/
def resizeMax (want : List Byte) : Exec (Kernel × Result Unit) :=
  ask ((Options.new.write.setResize (.max 7)).open_ tab t k path) fun k (m, _) => do
  assert (want.length = m.len)
  shows k m 0 m.len want
  return (k, .ok ())

/-- The map of a result that is not kept is dropped, and the file closed — src/map.rs:1057, 1095. -/
def dropped (k : Kernel) (r : Result (MapMut × Nat)) : Exec Kernel :=
  match r with
  | .ok (m, fd) => m.drop t (k.close fd)
  | .error _ => return k

/-- `Options::open` — src/map.rs:1057-1058. -/
def opening : Exec (Kernel × Result Unit) := do
  let (k, r) ← (Options.new.setLen (.exact 4)).open_ tab t k path
  assert (match r with | .error _ => false | .ok _ => true)
  let k ← dropped t k r
  let (k, r) ← (Options.new.setLen (.exact 25)).open_ tab t k path
  assert (match r with | .error _ => true | .ok _ => false)
  return (k, .ok ())

/-- `Options::open_if` — src/map.rs:1095-1099. -/
def openingIf : Exec (Kernel × Result Unit) := do
  let (k, r) ← (Options.new.setLen (.exact 4)).openIf tab t k path
  assert (match r with | .error _ => false | .ok _ => true)
  let k ← match r with
    | .ok (some m, fd) => dropped t k (.ok (m, fd))
    | .ok (none, fd) => pure (k.close fd)
    | .error _ => pure k
  let (k, r) ← (Options.new.setLen (.exact 25)).openIf tab t k path
  assert (match r with | .error _ => false | .ok _ => true)
  assert (match r with | .error _ => false | .ok (m, _) => m.isNone)
  return (k, .ok ())

/-- `Options::map`, after the file was opened for reading and writing and made 8 bytes long —
src/map.rs:1136-1137. -/
def mapping (fd : Nat) : Exec (Kernel × Result Unit) := do
  let (k, r) ← (Options.new.setLen (.exact 4)).map tab t k fd
  assert (match r with | .error _ => false | .ok _ => true)
  let k ← match r with
    | .ok m => m.drop t k
    | .error _ => pure k
  let (k, r) ← (Options.new.setLen (.exact 25)).map tab t k fd
  assert (match r with | .error _ => true | .ok _ => false)
  return (k, .ok ())

/-- `Options::map_if`, after the same — src/map.rs:1172-1176. -/
def mappingIf (fd : Nat) : Exec (Kernel × Result Unit) := do
  let (k, r) ← (Options.new.setLen (.exact 4)).mapIf tab t k fd
  assert (match r with | .error _ => false | .ok _ => true)
  let k ← match r with
    | .ok (some m) => m.drop t k
    | _ => pure k
  let (k, r) ← (Options.new.setLen (.exact 25)).mapIf tab t k fd
  assert (match r with | .error _ => false | .ok _ => true)
  assert (match r with | .error _ => false | .ok m => m.isNone)
  return (k, .ok ())

/-- `Options::alloc` — src/map.rs:1225-1226. -/
def alloc : Exec (Kernel × Result Unit) :=
  ask ((Options.newMut.setLen (.min 500)).alloc t k) fun k m => do
  assert (m.len ≥ 500)
  return (k, .ok ())

end DocMap
end Vmap
