import Verif.Model.Machine
/-
The operating system as seen by src/os/unix/*.rs and src/map.rs: a Linux-like kernel.

ENVIRONMENT MODEL (trusted base): nothing here is code of /repo; each definition
states the system call whose documented behaviour it writes down, and the source
lines that call it.  Every call consults an *oracle* which may make it fail with any
errno, and which picks the address of an `mmap(NULL, ..)`.
-/
namespace Vmap

/-- A byte of memory.  The `u8` of every slice in src/. -/
abbrev Byte := UInt8

/-- Identity of a memory object: a file's inode, a memfd, or the backing of an
anonymous or copied page. -/
macro "Obj" : term => `(Nat)

/-- Errno values are opaque numbers, except the ones the kernel model itself produces. -/
macro "Errno" : term => `(Nat)
/-- `EBADF` on Linux.  Environment of src/os/unix/mod.rs:46-209. -/
def EBADF : Errno := 9
/-- `EAGAIN` on Linux.  Environment of src/os/unix/mod.rs:46-209. -/
def EAGAIN : Errno := 11
/-- `ENOMEM` on Linux.  Environment of src/os/unix/mod.rs:46-209. -/
def ENOMEM : Errno := 12
/-- `EACCES` on Linux.  Environment of src/os/unix/mod.rs:46-209. -/
def EACCES : Errno := 13
/-- `EEXIST` on Linux.  Environment of src/os/unix/mod.rs:46-209. -/
def EEXIST : Errno := 17
/-- `EINVAL` on Linux.  Environment of src/os/unix/mod.rs:46-209. -/
def EINVAL : Errno := 22
/-- `ENOENT` on Linux.  Environment of src/os/unix/mod.rs:46-209. -/
def ENOENT : Errno := 2

/-- `PROT_READ`, `PROT_WRITE`, `PROT_EXEC`.  Used at src/os/unix/mod.rs:47-52, 70-75, 110-115. -/
structure Prot where
  r : Bool
  w : Bool
  x : Bool
  deriving DecidableEq, Repr

/-- The `MAP_*` bits that src/os/unix/mod.rs:46-76 and src/os/unix/posix/mod.rs:35-60 use. -/
structure MapFlags where
  shared : Bool := false
  priv : Bool := false
  anon : Bool := false
  fixed : Bool := false
  deriving DecidableEq, Repr

/-- A page-table entry (one virtual page).

* `obj`, `idx`: the object and page index within it that the page shows;
* `shared`: `MAP_SHARED` (stores go to `obj`) or `MAP_PRIVATE` (stores go to a copy);
* `copy`: the private copy of the page, once a store has made one;
* `mayWrite`: whether `mprotect` may turn on `PROT_WRITE` (`VM_MAYWRITE`: false for a
  shared mapping of a descriptor not opened for writing);
* `locked`: page is `mlock`ed.  Environment of src/os/unix/mod.rs:46-209. -/
structure Pte where
  obj : Obj
  idx : Nat
  prot : Prot
  shared : Bool
  mayWrite : Bool
  copy : Option Obj
  locked : Bool
  deriving DecidableEq, Repr

/-- An open file descriptor.
Environment of src/os/unix/mod.rs:46-66 and src/os/unix/posix/mod.rs:22-102. -/
structure Fd where
  obj : Obj
  canRead : Bool
  canWrite : Bool
  deriving DecidableEq, Repr

/-- The oracle's answer for one system call: succeed or fail with `errno`; the page number
`page` a non-fixed `mmap` would use; and, for a failing `MAP_FIXED` mapping, whether
the kernel had already removed the old mapping of the range (Linux may).
Environment of src/os/unix/mod.rs:46-209. -/
structure Choice where
  ok : Bool
  errno : Errno
  page : Nat
  clobber : Bool
  deriving DecidableEq, Repr

/-- The hints of src/os/unix/mod.rs:158-164. -/
inductive Madv
  | normal | sequential | random | willneed | dontneed
  deriving DecidableEq, Repr

/-- A system call with its arguments, as recorded in the kernel's log.
The calls of src/os/unix/mod.rs:46-209, src/os/unix/posix/mod.rs:22-102 and
src/os/unix/mach.rs:79-152. -/
inductive Call
  | mmap (addr len : Nat) (prot : Prot) (flags : MapFlags) (fd : Option Nat) (off : Nat)
  | munmap (addr len : Nat)
  | mprotect (addr len : Nat) (prot : Prot)
  | msync (addr len : Nat) (sync : Bool)
  | madvise (addr len : Nat) (adv : Madv)
  | mlock (addr len : Nat) (on : Bool)
  | memfd
  | ftruncate (fd len : Nat)
  | close (fd : Nat)
  | fstat (fd : Nat)
  | open (path : String)
  -- the calls of src/os/unix/mach.rs:79-152 (macOS and iOS)
  | vmAllocate (len : Nat)
  | vmAllocateAt (addr len : Nat)
  | vmDeallocate (addr len : Nat)
  | memoryEntry (addr len : Nat)
  | vmMap (addr len port : Nat)
  deriving DecidableEq, Repr

/-- A finished system call and its result (`0` for calls that return nothing).
The calls of src/os/unix/mod.rs:46-209 and src/os/unix/posix/mod.rs:22-102. -/
structure Event where
  call : Call
  result : Except Errno Nat
  deriving DecidableEq

/-- Machine state outside the process's own variables.
Environment of src/os/unix/mod.rs:46-209 and src/os/unix/posix/mod.rs:22-102. -/
structure Kernel where
  /-- page size in bytes (`sysconf(_SC_PAGESIZE)`) -/
  page : Nat
  /-- page table: virtual page number ↦ entry -/
  pt : Nat → Option Pte
  /-- contents of every object, as the page cache holds it -/
  data : Obj → Nat → Byte
  /-- length in bytes of every object -/
  size : Obj → Nat
  /-- contents of every object on stable storage -/
  disk : Obj → Nat → Byte
  /-- open descriptors -/
  fds : Nat → Option Fd
  /-- file names -/
  names : String → Option Obj
  /-- objects from here on are unused -/
  fresh : Obj
  /-- descriptors from here on are unused -/
  nextFd : Nat
  /-- number of system calls made so far -/
  tick : Nat
  /-- the system calls made so far, latest first (bookkeeping for statements only) -/
  log : List Event
  /-- what the environment decides for the `n`-th system call -/
  oracle : Nat → Choice
  /-- macOS or iOS: rings are made by src/os/unix/mach.rs, not by src/os/unix/posix/mod.rs -/
  mach : Bool := false
  /-- the memory-entry port rights the process holds (macOS and iOS): object and page in it -/
  ports : List (Obj × Nat) := []

/-- Result of a system call: new state and value or errno.
Environment of src/os/unix/mod.rs:46-209. -/
abbrev Sys (α : Type) := Kernel × Except Errno α

namespace Kernel

/-- The oracle's answer for the system call being made now.
Environment of src/os/unix/mod.rs:46-209. -/
def now (k : Kernel) : Choice := k.oracle k.tick

/-- Account for one system call.  Environment of src/os/unix/mod.rs:46-209. -/
def tock (k : Kernel) : Kernel := { k with tick := k.tick + 1 }

/-- Write a finished system call to the log.  Environment of src/os/unix/mod.rs:46-209. -/
def record {α : Type} (c : Call) (val : α → Nat) (r : Sys α) : Sys α :=
  ({ r.1 with log := ⟨c, r.2.map val⟩ :: r.1.log }, r.2)

/-- Number of pages covering `len` bytes.  Environment of src/os/unix/mod.rs:46-209. -/
def pages (k : Kernel) (len : Nat) : Nat := (len + k.page - 1) / k.page

/-! ### Memory access -/

/-- The memory cell (object, byte index) that offset `off` of a page with entry `e` shows.
Behind every pointer made at src/os/unix/mod.rs:46-77. -/
def cell (k : Kernel) (e : Pte) (off : Nat) : Obj × Nat :=
  match e.copy with
  | some c => (c, off)
  | none => (e.obj, e.idx * k.page + off)

/-- A page is backed if it starts below the end of its object (otherwise: SIGBUS).
Behind every pointer made at src/os/unix/mod.rs:46-77. -/
def backed (k : Kernel) (e : Pte) : Bool := e.idx * k.page < k.size e.obj

/-- Load the byte at virtual address `a`.
Behind src/map.rs:158-165, 420-427, src/lib.rs:486-497 and src/io/mod.rs:44-61. -/
def load (k : Kernel) (a : Nat) : Exec Byte :=
  match k.pt (a / k.page) with
  | none => .error .memory
  | some e =>
    if e.prot.r && k.backed e then
      let c := k.cell e (a % k.page)
      .ok (k.data c.1 c.2)
    else .error .memory

/-- Change one byte of one object.
Behind src/map.rs:429-434, src/lib.rs:512-523 and src/io/mod.rs:95-114. -/
def setByte (k : Kernel) (o : Obj) (i : Nat) (b : Byte) : Kernel :=
  { k with data := fun o' i' => if o' = o ∧ i' = i then b else k.data o' i' }

/-- Replace one page-table entry.  Environment of src/os/unix/mod.rs:46-121. -/
def setPte (k : Kernel) (p : Nat) (e : Option Pte) : Kernel :=
  { k with pt := fun q => if q = p then e else k.pt q }

/-- Give page `p` (entry `e`, private, not yet copied) its own copy.
Behind writes to maps of src/os/unix/mod.rs:50 (`MAP_PRIVATE`). -/
def breakCow (k : Kernel) (p : Nat) (e : Pte) : Kernel :=
  { k with
    pt := fun q => if q = p then some { e with copy := some k.fresh } else k.pt q
    data := fun o i => if o = k.fresh then k.data e.obj (e.idx * k.page + i) else k.data o i
    fresh := k.fresh + 1 }

/-- Store a byte at virtual address `a`.  A store to a private page first copies it.
Behind src/map.rs:429-434, src/lib.rs:512-523 and src/io/mod.rs:95-114. -/
def store (k : Kernel) (a : Nat) (b : Byte) : Exec Kernel :=
  match k.pt (a / k.page) with
  | none => .error .memory
  | some e =>
    if e.prot.w && k.backed e then
      if e.shared then .ok (k.setByte e.obj (e.idx * k.page + a % k.page) b)
      else match e.copy with
        | some c => .ok (k.setByte c (a % k.page) b)
        | none => .ok ((k.breakCow (a / k.page) e).setByte k.fresh (a % k.page) b)
    else .error .memory

/-- Load `n` bytes from address `a`.
Behind src/map.rs:158-165, 420-427, src/lib.rs:486-497 and src/io/mod.rs:44-61. -/
def loadN (k : Kernel) (a : Nat) : Nat → Exec (List Byte)
  | 0 => .ok []
  | n + 1 => do
    let b ← k.load a
    let bs ← k.loadN (a + 1) n
    return b :: bs

/-- Store bytes from address `a` on.
Behind src/map.rs:429-434, src/lib.rs:512-523 and src/io/mod.rs:95-114. -/
def storeN (k : Kernel) (a : Nat) : List Byte → Exec Kernel
  | [] => .ok k
  | b :: bs => do
    let k' ← k.store a b
    k'.storeN (a + 1) bs

/-! ### Mapping calls -/

/-- All `n` pages from page number `p` are unmapped.  Environment of src/os/unix/mod.rs:56,76. -/
def rangeFree (k : Kernel) (p : Nat) : Nat → Bool
  | 0 => true
  | n + 1 => (k.pt p).isNone && k.rangeFree (p + 1) n

/-- All `n` pages from page number `p` are mapped.
Environment of src/os/unix/mod.rs:116,139,166,185. -/
def rangeMapped (k : Kernel) (p : Nat) : Nat → Bool
  | 0 => true
  | n + 1 => (k.pt p).isSome && k.rangeMapped (p + 1) n

/-- Remove the mappings of `n` pages from page number `p`.  Environment of src/os/unix/mod.rs:91. -/
def clearRange (k : Kernel) (p n : Nat) : Kernel :=
  { k with pt := fun q => if p ≤ q ∧ q < p + n then none else k.pt q }

/-- Map `n` pages from page number `p` to object `o`, page indices from `idx`.
Environment of src/os/unix/mod.rs:56,76 and src/os/unix/posix/mod.rs:67. -/
def mapRange (k : Kernel) (p n : Nat) (o : Obj) (idx : Nat) (prot : Prot)
    (shared mayWrite : Bool) : Kernel :=
  { k with pt := fun q =>
      if p ≤ q ∧ q < p + n then
        some { obj := o, idx := idx + (q - p), prot, shared, mayWrite, copy := none,
               locked := false }
      else k.pt q }

/-- A new all-zero object of `len` bytes.
Environment of src/os/unix/mod.rs:76 and src/os/unix/posix/memfd.rs:10. -/
def newObj (k : Kernel) (len : Nat) : Kernel :=
  { k with
    data := fun o i => if o = k.fresh then 0 else k.data o i
    size := fun o => if o = k.fresh then len else k.size o
    fresh := k.fresh + 1 }

/-- What a valid `mmap` request maps: an object (`none`: new anonymous memory), and whether
`mprotect` may later make it writable.
Environment of src/os/unix/mod.rs:56,76 and src/os/unix/posix/mod.rs:67. -/
def mmapSource (k : Kernel) (prot : Prot) (flags : MapFlags) (fd : Option Nat) :
    Except Errno (Option Obj × Bool) :=
  if flags.anon then .ok (none, true)
  else match fd.bind k.fds with
    | none => .error EBADF
    | some f =>
      if !f.canRead then .error EACCES
      else if flags.shared && prot.w && !f.canWrite then .error EACCES
      else .ok (some f.obj, !flags.shared || f.canWrite)

/-- The part of `mmap` after the arguments are validated and the page number `p` is known:
map `n` pages there.  The range must lie below the last byte of the address space (Linux
never maps the topmost page), not start at page zero, and be free unless `MAP_FIXED` is
given.  Environment of src/os/unix/mod.rs:56,76 and src/os/unix/posix/mod.rs:67. -/
def mmapAt (t : Target) (k : Kernel) (c : Choice) (p n : Nat) (src : Option Obj)
    (idx : Nat) (prot : Prot) (flags : MapFlags) (mayWrite : Bool) : Sys Nat :=
  if t.lim ≤ (p + n) * k.page || p = 0 then (k, .error ENOMEM)
  else if !flags.fixed && !k.rangeFree p n then (k, .error ENOMEM)
  else if !c.ok then
    (if flags.fixed && c.clobber then k.clearRange p n else k, .error c.errno)
  else match src with
    | some o => (k.mapRange p n o idx prot flags.shared mayWrite, .ok (p * k.page))
    | none =>
      ((k.newObj (n * k.page)).mapRange p n k.fresh 0 prot flags.shared mayWrite,
        .ok (p * k.page))

/-- `mmap(addr, len, prot, flags, fd, off)` — called at src/os/unix/mod.rs:53-64,76 and
src/os/unix/posix/mod.rs:67.  `fd = none` is `-1`.  `off as off_t` is negative from
`lim/2` on (`off_t` is as wide as `usize` here), which the kernel refuses. -/
def mmapCore (t : Target) (k : Kernel) (addr len : Nat) (prot : Prot) (flags : MapFlags)
    (fd : Option Nat) (off : Nat) : Sys Nat :=
  let c := k.now
  let k := k.tock
  if len = 0 || off % k.page != 0 || t.lim / 2 ≤ off || flags.shared == flags.priv then
    (k, .error EINVAL)
  else match k.mmapSource prot flags fd with
  | .error e => (k, .error e)
  | .ok (src, mayWrite) =>
    if flags.fixed then
      if addr % k.page != 0 then (k, .error EINVAL)
      else k.mmapAt t c (addr / k.page) (k.pages len) src (off / k.page) prot flags mayWrite
    else k.mmapAt t c c.page (k.pages len) src (off / k.page) prot flags mayWrite

/-- `mmap`, recorded in the log.
Called at src/os/unix/mod.rs:56,76 and src/os/unix/posix/mod.rs:67. -/
def mmap (t : Target) (k : Kernel) (addr len : Nat) (prot : Prot) (flags : MapFlags)
    (fd : Option Nat) (off : Nat) : Sys Nat :=
  record (.mmap addr len prot flags fd off) id (mmapCore t k addr len prot flags fd off)

/-- `munmap(addr, len)` — called at src/os/unix/mod.rs:91.  Fails only on a misaligned
address or zero length (Linux can also run out of VMA slots when splitting a mapping;
not modelled). -/
def munmapCore (k : Kernel) (addr len : Nat) : Sys Unit :=
  let k := k.tock
  if len = 0 || addr % k.page != 0 then (k, .error EINVAL)
  else (k.clearRange (addr / k.page) (k.pages len), .ok ())

/-- `munmap`, recorded in the log.  Called at src/os/unix/mod.rs:91. -/
def munmap (k : Kernel) (addr len : Nat) : Sys Unit :=
  record (.munmap addr len) (fun _ => 0) (munmapCore k addr len)

/-- Apply `f` to the entries of `n` pages from page number `p`.
Environment of src/os/unix/mod.rs:116. -/
def updRange (k : Kernel) (p n : Nat) (f : Pte → Pte) : Kernel :=
  { k with pt := fun q => if p ≤ q ∧ q < p + n then (k.pt q).map f else k.pt q }

/-- All `n` pages from `p` may be given protection `prot`.
Environment of src/os/unix/mod.rs:116. -/
def rangeMay (k : Kernel) (prot : Prot) (p : Nat) : Nat → Bool
  | 0 => true
  | n + 1 =>
    (match k.pt p with
      | some e => !prot.w || e.mayWrite
      | none => true) && k.rangeMay prot (p + 1) n

/-- `mprotect(addr, len, prot)` — called at src/os/unix/mod.rs:116.  (On error Linux may have
changed a prefix of the range; the model changes nothing.) -/
def mprotectCore (k : Kernel) (addr len : Nat) (prot : Prot) : Sys Unit :=
  let c := k.now
  let k := k.tock
  let p := addr / k.page
  let n := k.pages len
  if addr % k.page != 0 then (k, .error EINVAL)
  else if !k.rangeMapped p n then (k, .error ENOMEM)
  else if !k.rangeMay prot p n then (k, .error EACCES)
  else if !c.ok then (k, .error c.errno)
  else (k.updRange p n (fun e => { e with prot := prot }), .ok ())

/-- `mprotect`, recorded in the log.  Called at src/os/unix/mod.rs:116. -/
def mprotect (k : Kernel) (addr len : Nat) (prot : Prot) : Sys Unit :=
  record (.mprotect addr len prot) (fun _ => 0) (mprotectCore k addr len prot)

/-- Page `q`'s entry shows page `i` of object `o` directly (shared).
Environment of src/os/unix/mod.rs:139. -/
def showsShared (k : Kernel) (q : Nat) (o : Obj) (i : Nat) : Bool :=
  match k.pt q with
  | some e => e.shared && e.obj == o && e.idx == i
  | none => false

/-- `msync(addr, len, MS_SYNC | MS_ASYNC)` — called at src/os/unix/mod.rs:139.  A successful
`MS_SYNC` writes the shared pages of the range to stable storage before returning;
`MS_ASYNC` promises nothing yet. -/
def msyncCore (k : Kernel) (addr len : Nat) (sync : Bool) : Sys Unit :=
  let c := k.now
  let k := k.tock
  let p := addr / k.page
  let n := k.pages len
  if addr % k.page != 0 then (k, .error EINVAL)
  else if !k.rangeMapped p n then (k, .error ENOMEM)
  else if !c.ok then (k, .error c.errno)
  else if sync then
    ({ k with disk := fun o i =>
        if (List.range n).any (fun j => k.showsShared (p + j) o (i / k.page))
        then k.data o i else k.disk o i }, .ok ())
  else (k, .ok ())

/-- `msync`, recorded in the log.  Called at src/os/unix/mod.rs:139. -/
def msync (k : Kernel) (addr len : Nat) (sync : Bool) : Sys Unit :=
  record (.msync addr len sync) (fun _ => 0) (msyncCore k addr len sync)

/-- `madvise(addr, len, advice)` — called at src/os/unix/mod.rs:166.  All hints but
`MADV_DONTNEED` have no visible effect.  `MADV_DONTNEED` drops the private copies of the
pages of the range: they show the underlying object again (madvise(2): "for private
mappings … subsequent accesses … will result in … zero-fill-on-demand pages for
anonymous private mappings / repopulating from the underlying mapped file"). -/
def madviseCore (k : Kernel) (addr len : Nat) (adv : Madv) : Sys Unit :=
  let c := k.now
  let k := k.tock
  let p := addr / k.page
  let n := k.pages len
  if addr % k.page != 0 then (k, .error EINVAL)
  else if !k.rangeMapped p n then (k, .error ENOMEM)
  else if !c.ok then (k, .error c.errno)
  else if adv = .dontneed then (k.updRange p n (fun e => { e with copy := none }), .ok ())
  else (k, .ok ())

/-- `madvise`, recorded in the log.  Called at src/os/unix/mod.rs:166. -/
def madvise (k : Kernel) (addr len : Nat) (adv : Madv) : Sys Unit :=
  record (.madvise addr len adv) (fun _ => 0) (madviseCore k addr len adv)

/-- `mlock`/`munlock` — called at src/os/unix/mod.rs:184,203. -/
def mlockCore (k : Kernel) (addr len : Nat) (on : Bool) : Sys Unit :=
  let c := k.now
  let k := k.tock
  let p := addr / k.page
  let n := k.pages len
  if addr % k.page != 0 then (k, .error EINVAL)
  else if !k.rangeMapped p n then (k, .error ENOMEM)
  else if !c.ok then (k, .error c.errno)
  else (k.updRange p n (fun e => { e with locked := on }), .ok ())

/-- `mlock`/`munlock`, recorded in the log.  Called at src/os/unix/mod.rs:185,204. -/
def mlock (k : Kernel) (addr len : Nat) (on : Bool) : Sys Unit :=
  record (.mlock addr len on) (fun _ => 0) (mlockCore k addr len on)

/-! ### Descriptors and files -/

/-- `memfd_create` (src/os/unix/posix/memfd.rs:9-15): a new empty object, open read-write. -/
def memfdCreateCore (k : Kernel) : Sys Nat :=
  let c := k.now
  let k := k.tock
  if !c.ok then (k, .error c.errno)
  else
    ({ (k.newObj 0) with
        fds := fun d => if d = k.nextFd then some ⟨k.fresh, true, true⟩ else k.fds d
        nextFd := k.nextFd + 1 },
      .ok k.nextFd)

/-- `memfd_create`, recorded in the log.  Called at src/os/unix/posix/memfd.rs:10. -/
def memfdCreate (k : Kernel) : Sys Nat := record .memfd id (memfdCreateCore k)

/-- Set an object's length: bytes from the new length on read as zero afterwards, bytes
below both lengths are kept.  Environment of src/os/unix/posix/mod.rs:93 and src/map.rs:1186. -/
def resizeObj (k : Kernel) (o : Obj) (len : Nat) : Kernel :=
  { k with
    size := fun o' => if o' = o then len else k.size o'
    data := fun o' i =>
      if o' = o ∧ (len ≤ i ∨ k.size o ≤ i) then 0 else k.data o' i }

/-- `ftruncate(fd, len)` — called at src/os/unix/posix/mod.rs:93 and by
`File::set_len`.  Needs a descriptor open for writing; a length of `lim/2` or more is a
negative `off_t`. -/
def ftruncateCore (t : Target) (k : Kernel) (fd len : Nat) : Sys Unit :=
  let c := k.now
  let k := k.tock
  match k.fds fd with
  | none => (k, .error EBADF)
  | some f =>
    if !f.canWrite || t.lim / 2 ≤ len then (k, .error EINVAL)
    else if !c.ok then (k, .error c.errno)
    else (k.resizeObj f.obj len, .ok ())

/-- `ftruncate`, recorded in the log.  Called at src/os/unix/posix/mod.rs:93. -/
def ftruncate (t : Target) (k : Kernel) (fd len : Nat) : Sys Unit :=
  record (.ftruncate fd len) (fun _ => 0) (ftruncateCore t k fd len)

/-- `close(fd)` — called at src/os/unix/posix/mod.rs:27,96, and by dropping a `File`. -/
def close (k : Kernel) (fd : Nat) : Kernel :=
  let k := k.tock
  { k with
    fds := fun d => if d = fd then none else k.fds d
    log := ⟨.close fd, .ok 0⟩ :: k.log }

/-- `fstat(fd).st_size` — `File::metadata().len()`, src/map.rs:1184. -/
def fstatLenCore (k : Kernel) (fd : Nat) : Sys Nat :=
  let c := k.now
  let k := k.tock
  match k.fds fd with
  | none => (k, .error EBADF)
  | some f => if !c.ok then (k, .error c.errno) else (k, .ok (k.size f.obj))

/-- `fstat`, recorded in the log.  Called through std at src/map.rs:1184. -/
def fstatLen (k : Kernel) (fd : Nat) : Sys Nat := record (.fstat fd) id (fstatLenCore k fd)

/-- Power failure: the page cache and all mappings and descriptors are gone; objects hold
what was on stable storage.  What the documentation of src/lib.rs:181-186 (`Flush`) is about. -/
def crash (k : Kernel) : Kernel :=
  { k with data := k.disk, pt := fun _ => none, fds := fun _ => none }

end Kernel
end Vmap
