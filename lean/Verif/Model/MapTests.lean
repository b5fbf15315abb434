import Verif.Model.DocMap
/-
The tests of maps in the crate's own test suite (src/lib.rs:618-868), as programs over the model of
the crate, in the manner of `Model/DocMap`.  `path` is the file in the temporary directory; a test
that begins by writing a text to the file starts here with a file that has it, and the length
`write_default` returns is the length of that text.  Texts are ASCII, so `from_utf8` of some bytes is
`Ok` of a text exactly if the bytes are those of the text.  What happens when the test function
returns (maps, files and the temporary directory are dropped) is left out.
-/
namespace Vmap
namespace MapTests
open Doc (assert)
open DocMap (ask askConv shows put)

/-- "hello" — src/lib.rs:655. -/
def hello : List Byte := [104, 101, 108, 108, 111]

/-- The first number of `volatile` and `unaligned` — src/lib.rs:826, 856. -/
def one : Nat := 0xc3a5c85c97cb3127

/-- The second number of `volatile` and `unaligned` — src/lib.rs:827, 857. -/
def two : Nat := 0xb492b66fbe98f273

/-- `assert_eq!(v, map.read_volatile(off))` with a `u64` — e.g. src/lib.rs:823. -/
def holds (t : Target) (abi : Abi) (k : Kernel) (m : MapMut) (off v : Nat) : Exec Unit := do
  let r ← m.span.readVolatile t abi k .u64 off
  assert (v = r)

/-- `assert_eq!(v, map.read_unaligned(off))` with a `u64` — e.g. src/lib.rs:853. -/
def holdsAnywhere (t : Target) (abi : Abi) (k : Kernel) (m : MapMut) (off v : Nat) : Exec Unit := do
  let r ← m.span.readUnaligned t abi k .u64 off
  assert (v = r)

/-- `assert_eq!(call, v)` — e.g. src/lib.rs:621. -/
def gives (call : Exec Nat) (v : Nat) : Exec Unit := do
  let r ← call
  assert (r = v)

/-- `allocation_size` — src/lib.rs:618-645, where the unit is 4096. -/
def allocationSize (t : Target) (unit : Nat) : Exec Unit := do
  let sz := Size.withSize unit
  gives (sz.round t 0) 0
  gives (sz.round t 1) unit
  gives (sz.round t (unit - 1)) unit
  gives (sz.round t unit) unit
  gives (sz.round t (unit + 1)) (2 * unit)
  gives (sz.truncate t 0) 0
  gives (sz.truncate t 1) 0
  gives (sz.truncate t (unit - 1)) 0
  gives (sz.truncate t unit) unit
  gives (sz.truncate t (unit + 1)) unit
  gives (sz.size t 0) 0
  gives (sz.size t 1) unit
  gives (sz.size t 2) (2 * unit)
  gives (sz.count t 0) 0
  gives (sz.count t 1) 1
  gives (sz.count t (unit - 1)) 1
  gives (sz.count t unit) 1
  gives (sz.count t (unit + 1)) 2
  gives (sz.count t (2 * unit)) 2
  gives (sz.offset t 0) 0
  gives (sz.offset t 1) 1
  gives (sz.offset t (unit - 1)) (unit - 1)
  gives (sz.offset t unit) 0
  gives (sz.offset t (unit + 1)) 1

variable (tab : SysTable) (t : Target) (abi : Abi) (k : Kernel) (path : String)

/-- `alloc_min` — src/lib.rs:647-658. -/
def allocMin : Exec (Kernel × Result Unit) :=
  ask ((Options.newMut.setLen (.min 100)).alloc t k) fun k m => do
  let n ← (Size.alloc k).round t 100
  assert (m.len = n)
  shows k m 0 5 (List.replicate 5 0)
  let k ← put k m hello
  shows k m 0 5 hello
  return (k, .ok ())

/-- `alloc_exact` — src/lib.rs:660-669. -/
def allocExact : Exec (Kernel × Result Unit) :=
  ask ((Options.newMut.setLen (.exact 5)).alloc t k) fun k m => do
  assert (m.len = 5)
  shows k m 0 m.len (List.replicate 5 0)
  let k ← put k m hello
  shows k m 0 m.len hello
  return (k, .ok ())

/-- `alloc_offset`, which writes "hello" — src/lib.rs:671-687; `text` is what it writes. -/
def allocOffset (text : List Byte) : Exec (Kernel × Result Unit) := do
  let unit ← (Size.alloc k).size t 1
  let off ← subU t unit 5
  ask (((Options.newMut.setOffset off).setLen (.exact 6)).alloc t k) fun k m => do
  ask (.ok (Unix.protect k (ptrAdd t m.ptr 5) 1 .readOnly)) fun k _ => do
  assert (m.len = 6)
  shows k m 0 m.len (List.replicate 6 0)
  let k ← put k m text
  shows k m 0 m.len (text ++ [0])
  return (k, .ok ())

/-- `read_end` — src/lib.rs:689-697. -/
def readEnd : Exec (Kernel × Result Unit) :=
  ask ((Options.new.setOffset 29).open_ tab t k path) fun k (m, _) => do
  assert (30 ≤ m.len)
  let n ← subU t DocMap.about.length 29
  assert (n = m.len)
  shows k m 0 30 DocMap.fast
  return (k, .ok ())

/-- `read_min` — src/lib.rs:699-711. -/
def readMin : Exec (Kernel × Result Unit) :=
  ask (((Options.new.setOffset 29).setLen (.min 30)).open_ tab t k path) fun k (m, _) => do
  assert (30 ≤ m.len)
  let n ← subU t DocMap.about.length 29
  assert (n = m.len)
  shows k m 0 30 DocMap.fast
  return (k, .ok ())

/-- `read_max` — src/lib.rs:713-723. -/
def readMax : Exec (Kernel × Result Unit) :=
  ask (((Options.new.setOffset 29).setLen (.max 30)).open_ tab t k path) fun k (m, _) => do
  assert (m.len = 30)
  shows k m 0 m.len DocMap.fast
  return (k, .ok ())

/-- `read_exact` — src/lib.rs:725-732. -/
def readExact : Exec (Kernel × Result Unit) :=
  ask (((Options.new.setOffset 29).setLen (.exact 30)).open_ tab t k path) fun k (m, _) => do
  assert (m.len = 30)
  shows k m 0 m.len DocMap.fast
  return (k, .ok ())

/-- `copy` — src/lib.rs:734-748. -/
def copy : Exec (Kernel × Result Unit) :=
  ask (((Options.newMut.setOffset 29).setLen (.exact 30)).copy.open_ tab t k path) fun k (m, _) => do
  assert (m.len = 30)
  shows k m 0 m.len DocMap.fast
  let k ← put k m DocMap.nice
  shows k m 0 m.len (DocMap.nice ++ DocMap.fast.drop 4)
  return (k, .ok ())

/-- `write_into_mut` — src/lib.rs:750-776. -/
def writeIntoMut : Exec (Kernel × Result Unit) :=
  ask ((Options.new.write.setResize (.exact 16)).open_ tab t k path) fun k (m, _) => do
  assert (16 = m.len)
  shows k m 0 14 DocMap.this
  shows k m 0 m.len (DocMap.this ++ [0, 0])
  askConv ((Map.mk m).intoMapMut t k) fun k m => do
  let k ← put k m DocMap.that
  shows k m 0 14 (DocMap.that ++ DocMap.this.drop 4)
  shows k m 0 m.len (DocMap.that ++ DocMap.this.drop 4 ++ [0, 0])
  askConv (m.intoMap t k) fun k m => do
  shows k m.inner 0 14 (DocMap.that ++ DocMap.this.drop 4)
  shows k m.inner 0 m.inner.len (DocMap.that ++ DocMap.this.drop 4 ++ [0, 0])
  ask (Options.new.open_ tab t k path) fun k (m, _) => do
  assert (16 = m.len)
  shows k m 0 14 (DocMap.that ++ DocMap.this.drop 4)
  shows k m 0 m.len (DocMap.that ++ DocMap.this.drop 4 ++ [0, 0])
  return (k, .ok ())

/-- `truncate` — src/lib.rs:778-792. -/
def truncate : Exec (Kernel × Result Unit) :=
  ask (((Options.new.write.setTruncate true).setResize (.exact 16)).open_ tab t k path) fun k (m, _) => do
  assert (16 = m.len)
  shows k m 0 m.len (List.replicate 16 0)
  return (k, .ok ())

/-- `volatile` — src/lib.rs:810-838. -/
def volatile : Exec (Kernel × Result Unit) :=
  ask ((((Options.newMut.write.setTruncate true).create true).setResize (.exact 16)).open_ tab t k path)
    fun k (m, _) => do
  assert (16 = m.len)
  holds t abi k m 0 0
  holds t abi k m 8 0
  let k ← m.span.writeVolatile t abi k .u64 0 one
  let k ← m.span.writeVolatile t abi k .u64 8 two
  holds t abi k m 0 one
  holds t abi k m 8 two
  ask (Options.new.open_ tab t k path) fun k (m, _) => do
  assert (16 = m.len)
  holds t abi k m 0 one
  holds t abi k m 8 two
  return (k, .ok ())

/-- `unaligned` — src/lib.rs:840-868. -/
def unaligned : Exec (Kernel × Result Unit) :=
  ask ((((Options.newMut.write.setTruncate true).create true).setResize (.exact 17)).open_ tab t k path)
    fun k (m, _) => do
  assert (17 = m.len)
  holdsAnywhere t abi k m 1 0
  holdsAnywhere t abi k m 9 0
  let k ← m.span.writeUnaligned t abi k .u64 1 one
  let k ← m.span.writeUnaligned t abi k .u64 9 two
  holdsAnywhere t abi k m 1 one
  holdsAnywhere t abi k m 9 two
  ask (Options.new.open_ tab t k path) fun k (m, _) => do
  assert (17 = m.len)
  holdsAnywhere t abi k m 1 one
  holdsAnywhere t abi k m 9 two
  return (k, .ok ())

end MapTests
end Vmap
