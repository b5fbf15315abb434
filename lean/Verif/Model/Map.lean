import Verif.Model.File
import Verif.Model.Unix
/-
src/map.rs — `Map`, `MapMut` and their `Options`.
-/
namespace Vmap

/-- `struct MapMut { ptr, len }` — src/map.rs:196-199. -/
structure MapMut where
  ptr : Nat
  len : Nat
  deriving DecidableEq, Repr

/-- `struct Map(MapMut)` — src/map.rs:36. -/
structure Map where
  inner : MapMut
  deriving DecidableEq, Repr

/-- `enum Extent` — src/lib.rs:211-223.  `impl From<usize> for Extent` (225-229) is `exact`. -/
inductive Extent
  | endOf
  | exact (n : Nat)
  | min (n : Nat)
  | max (n : Nat)
  deriving DecidableEq, Repr

/-- `Size::page()` — src/lib.rs:312-314 (through src/lib.rs:240-247, for which see
Model/SysInfo.lean). -/
def Size.page (k : Kernel) : Size := Size.withSize (Unix.systemInfo k).1

/-- `Size::alloc()` — src/lib.rs:321-323 (through src/lib.rs:265-272). -/
def Size.alloc (k : Kernel) : Size := Size.withSize (Unix.systemInfo k).2

/-- `ptr.add(n)` on an address; wraps modulo the address space (out of bounds it is undefined
behaviour in Rust; this is what compiled code does).  E.g. src/map.rs:317,1213. -/
def ptrAdd (t : Target) (ptr n : Nat) : Nat := asUsize t (ptr + n)

namespace MapMut

/-- `MapMut::from_ptr` — src/map.rs:384-388. -/
def fromPtr (ptr len : Nat) : MapMut := ⟨ptr, len⟩

/-- `MapMut::into_map` — src/map.rs:289-295 (it asks for `Protect::ReadWrite`). -/
def intoMap (t : Target) (k : Kernel) (m : MapMut) :
    Exec (Kernel × ConvertResult Map MapMut) := do
  let (ptr, len) ← (Size.page k).bounds t m.ptr m.len
  match Unix.protect k ptr len .readWrite with
  | (k, .ok ()) => return (k, .ok ⟨m⟩)
  | (k, .error err) => return (k, .error (err, m))

/-- `MapMut::flush` — src/map.rs:301-306. -/
def flush (t : Target) (k : Kernel) (m : MapMut) (mode : FlushMode) :
    Exec (Kernel × Result Unit) := do
  let (ptr, len) ← (Size.page k).bounds t m.ptr m.len
  return Unix.flush k ptr len mode

/-- `MapMut::flush_range` — src/map.rs:312-321. -/
def flushRange (t : Target) (k : Kernel) (m : MapMut) (off len : Nat) (mode : FlushMode) :
    Exec (Kernel × Result Unit) := do
  let sum ← addU t off len
  if sum > m.len then return (k, .error (Error.input .flush .invalidRange))
  else
    let (ptr, len) ← (Size.page k).bounds t (ptrAdd t m.ptr off) len
    return Unix.flush k ptr len mode

/-- `MapMut::advise` — src/map.rs:324-329. -/
def advise (t : Target) (k : Kernel) (m : MapMut) (adv : Advise) :
    Exec (Kernel × Result Unit) := do
  let (ptr, len) ← (Size.page k).bounds t m.ptr m.len
  return Unix.advise k ptr len adv

/-- `MapMut::advise_range` — src/map.rs:332-341. -/
def adviseRange (t : Target) (k : Kernel) (m : MapMut) (off len : Nat) (adv : Advise) :
    Exec (Kernel × Result Unit) := do
  let sum ← addU t off len
  if sum > m.len then return (k, .error (Error.input .advise .invalidRange))
  else
    let (ptr, len) ← (Size.page k).bounds t (ptrAdd t m.ptr off) len
    return Unix.advise k ptr len adv

/-- `MapMut::lock` — src/map.rs:344-349. -/
def lock (t : Target) (k : Kernel) (m : MapMut) : Exec (Kernel × Result Unit) := do
  let (ptr, len) ← (Size.page k).bounds t m.ptr m.len
  return Unix.lock k ptr len

/-- `MapMut::lock_range` — src/map.rs:352-361. -/
def lockRange (t : Target) (k : Kernel) (m : MapMut) (off len : Nat) :
    Exec (Kernel × Result Unit) := do
  let sum ← addU t off len
  if sum > m.len then return (k, .error (Error.input .lock .invalidRange))
  else
    let (ptr, len) ← (Size.page k).bounds t (ptrAdd t m.ptr off) len
    return Unix.lock k ptr len

/-- `MapMut::unlock` — src/map.rs:364-369. -/
def unlock (t : Target) (k : Kernel) (m : MapMut) : Exec (Kernel × Result Unit) := do
  let (ptr, len) ← (Size.page k).bounds t m.ptr m.len
  return Unix.unlock k ptr len

/-- `MapMut::unlock_range` — src/map.rs:372-381. -/
def unlockRange (t : Target) (k : Kernel) (m : MapMut) (off len : Nat) :
    Exec (Kernel × Result Unit) := do
  let sum ← addU t off len
  if sum > m.len then return (k, .error (Error.input .unlock .invalidRange))
  else
    let (ptr, len) ← (Size.page k).bounds t (ptrAdd t m.ptr off) len
    return Unix.unlock k ptr len

/-- `impl Drop for MapMut` — src/map.rs:409-418: empty maps are not unmapped, errors are
ignored. -/
def drop (t : Target) (k : Kernel) (m : MapMut) : Exec Kernel := do
  if m.len > 0 then
    let (ptr, len) ← (Size.alloc k).bounds t m.ptr m.len
    return (Unix.unmap k ptr len).1
  else return k

/-- `&map[..]` (`Deref`) — src/map.rs:420-427: the bytes a reader of the slice sees. -/
def bytes (k : Kernel) (m : MapMut) : Exec (List Byte) := k.loadN m.ptr m.len

/-- `map[i]` through `Deref` — src/map.rs:420-427 and std's bounds check. -/
def get (k : Kernel) (m : MapMut) (i : Nat) : Exec Byte :=
  if i < m.len then k.load (m.ptr + i) else .error .panic

/-- `map[i] = b` through `DerefMut` — src/map.rs:429-434 and std's bounds check. -/
def set (k : Kernel) (m : MapMut) (i : Nat) (b : Byte) : Exec Kernel :=
  if i < m.len then k.store (m.ptr + i) b else .error .panic

end MapMut

namespace Map

/-- `Map::from_ptr` — src/map.rs:140-144. -/
def fromPtr (ptr len : Nat) : Map := ⟨MapMut.fromPtr ptr len⟩

/-- `Map::into_map_mut` — src/map.rs:101-107. -/
def intoMapMut (t : Target) (k : Kernel) (m : Map) :
    Exec (Kernel × ConvertResult MapMut Map) := do
  let (ptr, len) ← (Size.page k).bounds t m.inner.ptr m.inner.len
  match Unix.protect k ptr len .readWrite with
  | (k, .ok ()) => return (k, .ok m.inner)
  | (k, .error err) => return (k, .error (err, m))

/-- `Map::advise` — src/map.rs:110-112. -/
def advise (t : Target) (k : Kernel) (m : Map) (adv : Advise) := m.inner.advise t k adv
/-- `Map::advise_range` — src/map.rs:115-117. -/
def adviseRange (t : Target) (k : Kernel) (m : Map) (off len : Nat) (adv : Advise) :=
  m.inner.adviseRange t k off len adv
/-- `Map::lock` — src/map.rs:120-122. -/
def lock (t : Target) (k : Kernel) (m : Map) := m.inner.lock t k
/-- `Map::lock_range` — src/map.rs:125-127. -/
def lockRange (t : Target) (k : Kernel) (m : Map) (off len : Nat) :=
  m.inner.lockRange t k off len
/-- `Map::unlock` — src/map.rs:130-132. -/
def unlock (t : Target) (k : Kernel) (m : Map) := m.inner.unlock t k
/-- `Map::unlock_range` — src/map.rs:135-137. -/
def unlockRange (t : Target) (k : Kernel) (m : Map) (off len : Nat) :=
  m.inner.unlockRange t k off len

/-- Dropping a `Map` drops its `MapMut` (src/map.rs:36, 409-418). -/
def drop (t : Target) (k : Kernel) (m : Map) : Exec Kernel := m.inner.drop t k

/-- `&map[..]` (`Deref`) — src/map.rs:158-165. -/
def bytes (k : Kernel) (m : Map) : Exec (List Byte) := k.loadN m.inner.ptr m.inner.len

end Map

/-- `struct Options<T>` — src/map.rs:498-506 (the marker is a phantom). -/
structure Options where
  openOptions : OpenOptions
  resize : Extent
  len : Extent
  offset : Nat
  protect : Protect
  truncate : Bool
  deriving DecidableEq, Repr

namespace Options

/-- `Options::new` — src/map.rs:517-529; also `Default` (1243-1247) and
`Map::with_options` (67-69). -/
def new : Options where
  openOptions := { read := true }
  resize := .endOf
  len := .endOf
  offset := 0
  protect := .readOnly
  truncate := false

/-- `Options::write` — src/map.rs:555-559. -/
def write (o : Options) : Options :=
  { o with openOptions := { o.openOptions with write := true }, protect := .readWrite }

/-- `Options::copy` — src/map.rs:589-593. -/
def copy (o : Options) : Options :=
  { o with openOptions := { o.openOptions with write := false }, protect := .readCopy }

/-- `Options::create` — src/map.rs:626-629. -/
def create (o : Options) (b : Bool) : Options :=
  { o with openOptions := { o.openOptions with create := b } }

/-- `Options::create_new` — src/map.rs:666-669. -/
def createNew (o : Options) (b : Bool) : Options :=
  { o with openOptions := { o.openOptions with createNew := b } }

/-- `Options::truncate` — src/map.rs:709-713. -/
def setTruncate (o : Options) (b : Bool) : Options :=
  { o with openOptions := { o.openOptions with truncate := b }, truncate := b }

/-- `Options::offset` — src/map.rs:740-743. -/
def setOffset (o : Options) (n : Nat) : Options := { o with offset := n }

/-- `Options::len` — src/map.rs:884-887. -/
def setLen (o : Options) (e : Extent) : Options := { o with len := e }

/-- `Options::resize` — src/map.rs:1030-1033. -/
def setResize (o : Options) (e : Extent) : Options := { o with resize := e }

/-- `MapMut::with_options` — src/map.rs:235-239. -/
def newMut : Options := new.write

/-- `map_file_err` — src/map.rs:1249-1251. -/
def mapFileErr (e : IoError) : Error := Error.io .mapFile e

/-- The closure `resize` of `map_if` — src/map.rs:1186.  `sz as u64` is lossless. -/
def resizeFile (tab : SysTable) (k : Kernel) (fd sz : Nat) : Kernel × Result Nat :=
  match File.setLen tab k fd (asU64 sz) with
  | (k, .ok ()) => (k, .ok sz)
  | (k, .error e) => (k, .error (mapFileErr e))

/-- `map_if`, truncation — src/map.rs:1188-1190. -/
def truncateStep (tab : SysTable) (k : Kernel) (o : Options) (fd flen : Nat) :
    Kernel × Result Nat :=
  if o.truncate && flen > 0 then resizeFile tab k fd 0 else (k, .ok flen)

/-- `map_if`, resizing — src/map.rs:1192-1197. -/
def resizeStep (tab : SysTable) (k : Kernel) (o : Options) (fd flen : Nat) :
    Kernel × Result Nat :=
  match o.resize with
  | .exact sz => resizeFile tab k fd sz
  | .min sz => if sz > flen then resizeFile tab k fd sz else (k, .ok flen)
  | .max sz => if sz < flen then resizeFile tab k fd sz else (k, .ok flen)
  | .endOf => (k, .ok flen)

/-- `map_if`, the length to map out of the `max` bytes after the offset — src/map.rs:1204-1209.
`none` is the early `return Ok(None)`. -/
def mapLen (e : Extent) (max : Nat) : Option Nat :=
  match e with
  | .min l => if l > max then none else some max
  | .exact l => if l > max then none else some l
  | .endOf => some max
  | .max l => some (Nat.min l max)

/-- `map_if`, mapping — src/map.rs:1199-1214. -/
def mapStep (t : Target) (k : Kernel) (o : Options) (fd flen : Nat) :
    Exec (Kernel × Result (Option MapMut)) := do
  let off := o.offset
  if flen < off then return (k, .ok none)
  else
    let max ← subU t flen off
    match mapLen o.len max with
    | none => return (k, .ok none)
    | some len =>
      let mapoff ← (Size.alloc k).truncate t off
      let d ← subU t off mapoff
      let maplen ← addU t len d
      match Unix.mapFile t k fd mapoff maplen o.protect with
      | (k, .error e) => return (k, .error e)
      | (k, .ok ptr) => return (k, .ok (some (MapMut.fromPtr (ptrAdd t ptr d) len)))

/-- `Options::map_if` — src/map.rs:1182-1215.  `fd` is the `&File`.  `T::from_ptr` makes a
`Map` or `MapMut` of the same pointer and length; the result is shown as a `MapMut`. -/
def mapIf (tab : SysTable) (t : Target) (k : Kernel) (o : Options) (fd : Nat) :
    Exec (Kernel × Result (Option MapMut)) :=
  match File.len tab k fd with
  | (k, .error e) => return (k, .error (mapFileErr e))
  | (k, .ok n) =>
    match truncateStep tab k o fd (asUsize t n) with
    | (k, .error e) => return (k, .error e)
    | (k, .ok flen) =>
      match resizeStep tab k o fd flen with
      | (k, .error e) => return (k, .error e)
      | (k, .ok flen) => mapStep t k o fd flen

/-- `Options::map` — src/map.rs:1143-1146. -/
def map (tab : SysTable) (t : Target) (k : Kernel) (o : Options) (fd : Nat) :
    Exec (Kernel × Result MapMut) := do
  match ← o.mapIf tab t k fd with
  | (k, .error e) => return (k, .error e)
  | (k, .ok none) => return (k, .error (Error.input .mapFile .invalidRange))
  | (k, .ok (some m)) => return (k, .ok m)

/-- `Options::open` — src/map.rs:1067-1070.  An early return drops the `File`, which closes
the descriptor. -/
def open_ (tab : SysTable) (t : Target) (k : Kernel) (o : Options) (path : String) :
    Exec (Kernel × Result (MapMut × Nat)) :=
  match o.openOptions.open tab k path with
  | (k, .error e) => return (k, .error (mapFileErr e))
  | (k, .ok fd) => do
    match ← o.map tab t k fd with
    | (k, .error e) => return (k.close fd, .error e)
    | (k, .ok m) => return (k, .ok (m, fd))

/-- `Options::open_if` — src/map.rs:1108-1111. -/
def openIf (tab : SysTable) (t : Target) (k : Kernel) (o : Options) (path : String) :
    Exec (Kernel × Result (Option MapMut × Nat)) :=
  match o.openOptions.open tab k path with
  | (k, .error e) => return (k, .error (mapFileErr e))
  | (k, .ok fd) => do
    match ← o.mapIf tab t k fd with
    | (k, .error e) => return (k.close fd, .error e)
    | (k, .ok m) => return (k, .ok (m, fd))

/-- `alloc`, the length — src/map.rs:1232-1236. -/
def allocLen (t : Target) (k : Kernel) (e : Extent) (off : Nat) : Exec Nat :=
  match e with
  | .endOf => do
    let s ← addU t off 1
    let r ← (Size.alloc k).round t s
    subU t r off
  | .min l => do
    let s ← addU t off l
    let r ← (Size.alloc k).round t s
    subU t r off
  | .max l => return l
  | .exact l => return l

/-- `Options::alloc` — src/map.rs:1230-1240. -/
def alloc (t : Target) (k : Kernel) (o : Options) : Exec (Kernel × Result MapMut) := do
  let off ← (Size.page k).offset t o.offset
  let len ← allocLen t k o.len off
  let n ← addU t off len
  match Unix.mapAnon t k n o.protect with
  | (k, .error e) => return (k, .error e)
  | (k, .ok ptr) => return (k, .ok (MapMut.fromPtr (ptrAdd t ptr off) len))

end Options

/-- `MapMut::new` — src/map.rs:256-258. -/
def MapMut.new (t : Target) (k : Kernel) (hint : Nat) : Exec (Kernel × Result MapMut) :=
  (Options.newMut.setLen (.min hint)).alloc t k

end Vmap
