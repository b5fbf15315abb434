import Verif.Model.Map
/-
src/os/windows.rs — the Windows operating-system layer, and the parts of src/map.rs that create
and drop maps, on top of it.
-/
namespace Vmap

/-- Page protections passed to `CreateFileMappingW` and `VirtualProtect` (winapi constants
`PAGE_READONLY`, `PAGE_READWRITE`, `PAGE_WRITECOPY`, `PAGE_EXECUTE_READ`), imported at
src/os/windows.rs:19-22. -/
inductive WinProt
  | readonly | readwrite | writecopy | executeRead
  deriving DecidableEq, Repr

/-- Access bits passed to `MapViewOfFileEx` (winapi constants `FILE_MAP_READ`, `FILE_MAP_WRITE`,
`FILE_MAP_COPY`, `FILE_MAP_EXECUTE`), imported at src/os/windows.rs:13-17. -/
structure WinAccess where
  read : Bool := false
  write : Bool := false
  copy : Bool := false
  exec : Bool := false
  deriving DecidableEq, Repr

/-- A section (file-mapping object): its identity, the file it shows (`none`: the paging file),
its protection and its size in bytes.  Environment of src/os/windows.rs:34-41. -/
structure Section where
  id : Nat
  file : Option Nat
  prot : WinProt
  size : Nat
  deriving DecidableEq, Repr

/-- A mapped view: `len` bytes of section `sec` from byte `off` on, at address `base`.
Environment of src/os/windows.rs:56-63. -/
structure WinView where
  base : Nat
  len : Nat
  sec : Section
  off : Nat
  access : WinAccess
  deriving DecidableEq, Repr

/-- What Windows is free to decide at one call: whether it succeeds, `GetLastError()` if it does
not, and the address it picks.  Environment of src/os/windows.rs. -/
structure WinChoice where
  ok : Bool
  code : Nat
  addr : Nat
  deriving DecidableEq, Repr

/-- The calls the crate makes, in the form in which it makes them — src/os/windows.rs:34-324; the
last two are made by std for `File::metadata` and `File::set_len`, src/map.rs:1184,1186. -/
inductive WinCall
  | createFileMapping (file : Option Nat) (prot : WinProt) (hi lo : Nat)
  | mapViewOfFileEx (h : Nat) (access : WinAccess) (hi lo len at' : Nat)
  | unmapViewOfFile (addr : Nat)
  | closeHandle (h : Nat)
  | virtualAlloc (len : Nat)
  | virtualFree (addr : Nat)
  | virtualProtect (addr len : Nat) (prot : WinProt)
  | virtualLock (addr len : Nat)
  | virtualUnlock (addr len : Nat)
  | flushViewOfFile (addr len : Nat)
  | flushFileBuffers (file : Nat)
  | getFileInfo (file : Nat)
  | setEndOfFile (file len : Nat)
  deriving DecidableEq, Repr

/-- Bytes: the contents of files, the contents of sections of the paging file, and the copies a process
has made of single bytes of copy-on-write views, by section and address.  (A section has at most one
copy-on-write view at an address, ever: the crate makes a new section for each view.)
Environment of src/os/windows.rs. -/
structure WinBytes where
  file : Nat → Nat → Byte
  mem : Nat → Nat → Byte
  own : Nat → Nat → Option Byte

/-- A Windows process, as far as the crate uses it: page size and allocation granularity, the
length of each open file, mapped views, reserved ranges, open section handles, the next unused
handle and section number, the number of calls so far, Windows' choices, the calls made
(latest first), the bytes, and which pages (by number) are locked in memory.  Other threads
appear as failing calls (a race for a range that is lost), and around the calls of Model/WinJob and
Model/WinMapJob.  Environment of src/os/windows.rs. -/
structure Win where
  page : Nat
  gran : Nat
  files : Nat → Option Nat
  views : List WinView
  reserved : List (Nat × Nat)
  handles : Nat → Option Section
  next : Nat
  tick : Nat
  oracle : Nat → WinChoice
  log : List WinCall
  bytes : WinBytes
  locked : Nat → Bool

/-- A new section: zero, if of the paging file; nobody has copies.
Environment of src/os/windows.rs:34-41. -/
def WinBytes.newSection (b : WinBytes) (id : Nat) : WinBytes :=
  { b with
    mem := fun x i => if x = id then 0 else b.mem x i
    own := fun x a => if x = id then none else b.own x a }

/-- The length of a file changes from `old` to `size`: the bytes from the shorter of the two on are
zero.  (So on NTFS.  On file systems that do not promise it, what a file grows by is undefined.)
Environment of src/map.rs:1186. -/
def WinBytes.resize (b : WinBytes) (file old size : Nat) : WinBytes :=
  { b with file := fun f i => if f = file ∧ (old ≤ i ∨ size ≤ i) then 0 else b.file f i }

/-- Byte `i` of a section.  Environment of src/os/windows.rs:34-41. -/
def WinBytes.shown (b : WinBytes) (sec : Section) (i : Nat) : Byte :=
  match sec.file with
  | some f => b.file f i
  | none => b.mem sec.id i

namespace Win

/-- One more call has been made.  Environment of src/os/windows.rs. -/
def did (s : Win) (c : WinCall) : Win := { s with tick := s.tick + 1, log := c :: s.log }

/-- Windows' choice for the next call.  Environment of src/os/windows.rs. -/
def choice (s : Win) : WinChoice := s.oracle s.tick

/-- Length of the address range taken up by `len` bytes: whole pages.
Environment of src/os/windows.rs:56-63,132. -/
def roundPage (s : Win) (len : Nat) : Nat := (len + s.page - 1) / s.page * s.page

/-- Is the range of `len` bytes at `a` free of views and reservations?.
Environment of src/os/windows.rs:56-63,132. -/
def free (s : Win) (a len : Nat) : Bool :=
  s.views.all (fun v => decide (a + s.roundPage len ≤ v.base ∨ v.base + s.roundPage v.len ≤ a)) &&
  s.reserved.all (fun r => decide (a + s.roundPage len ≤ r.1 ∨ r.1 + s.roundPage r.2 ≤ a))

/-- May a section with this protection be viewed with this access?  (Windows documentation of
`MapViewOfFileEx`.).  Environment of src/os/windows.rs:56-63. -/
def permits (p : WinProt) (a : WinAccess) : Bool :=
  (!a.write || decide (p = .readwrite)) && (!a.exec || decide (p = .executeRead))

/-- The size of a new section for which `size` was asked; zero if refused.  (Windows documentation
of `CreateFileMappingW`, called at src/os/windows.rs:34-41: zero means the size of the file and
is refused for the paging file and for empty files.  A size beyond the end of the file, which
would extend it, is not used by the crate: refused here.) -/
def sectionSize (s : Win) (file : Option Nat) (size : Nat) : Nat :=
  match file with
  | none => size
  | some f =>
    match s.files f with
    | none => 0
    | some n => if size = 0 then n else if size ≤ n then size else 0

/-- `CreateFileMappingW(file, null, prot, hi, lo, null)` — called at src/os/windows.rs:34-41. -/
def createFileMapping (s : Win) (file : Option Nat) (prot : WinProt) (hi lo : Nat) :
    Win × Except Nat Nat :=
  let c := s.choice
  let s' := s.did (.createFileMapping file prot hi lo)
  let size := s.sectionSize file (hi * 2 ^ 32 + lo)
  if c.ok = true ∧ size ≠ 0 then
    ({ s' with
        handles := fun h => if h = s.next then some ⟨s.next, file, prot, size⟩ else s.handles h
        next := s.next + 1
        bytes := s.bytes.newSection s.next }, .ok s.next)
  else (s', .error c.code)

/-- `MapViewOfFileEx(handle, access, hi, lo, len, at)` — called at src/os/windows.rs:56-63.
`at' = 0` lets Windows choose; `len = 0` maps to the end of the section. -/
def mapViewOfFileEx (t : Target) (s : Win) (h : Nat) (access : WinAccess) (hi lo len at' : Nat) :
    Win × Except Nat Nat :=
  let c := s.choice
  let s' := s.did (.mapViewOfFileEx h access hi lo len at')
  let off := hi * 2 ^ 32 + lo
  match s.handles h with
  | none => (s', .error c.code)
  | some sec =>
    let n := if len = 0 then sec.size - off else len
    let base := if at' = 0 then c.addr else at'
    if c.ok = true ∧ off % s.gran = 0 ∧ n ≠ 0 ∧ off + n ≤ sec.size ∧ base ≠ 0 ∧ base % s.gran = 0 ∧
        base + s.roundPage n < t.lim ∧ s.free base n = true ∧ permits sec.prot access = true then
      ({ s' with views := ⟨base, n, sec, off, access⟩ :: s.views }, .ok base)
    else (s', .error c.code)

/-- Is page number `q` one of the view's?  Environment of src/os/windows.rs:56-63. -/
def _root_.Vmap.WinView.onPage (page : Nat) (v : WinView) (q : Nat) : Bool :=
  decide (v.base ≤ q * page ∧ q * page < v.base + v.len)

/-- `UnmapViewOfFile(addr)` — called at src/os/windows.rs:152,192,212,215.  `addr` must be the base
of a view; returns whether it was (the BOOL of the call), or the error code.  What was locked in the
view is unlocked. -/
def unmapViewOfFile (s : Win) (addr : Nat) : Win × Except Nat Unit :=
  let s' := s.did (.unmapViewOfFile addr)
  if s.views.any (fun v => decide (v.base = addr)) then
    ({ s' with
        views := s.views.filter (fun v => decide (v.base ≠ addr))
        locked := fun q => s.locked q &&
          !s.views.any (fun v => decide (v.base = addr) && v.onPage s.page q) }, .ok ())
  else (s', .error s.choice.code)

/-- `CloseHandle(handle)` — called at src/os/windows.rs:86. -/
def closeHandle (s : Win) (h : Nat) : Win :=
  { s.did (.closeHandle h) with handles := fun q => if q = h then none else s.handles q }

/-- `VirtualAlloc(null, len, MEM_RESERVE, PAGE_NOACCESS)` — called at src/os/windows.rs:132. -/
def virtualAlloc (t : Target) (s : Win) (len : Nat) : Win × Except Nat Nat :=
  let c := s.choice
  let s' := s.did (.virtualAlloc len)
  if c.ok = true ∧ c.addr ≠ 0 ∧ c.addr % s.gran = 0 ∧ c.addr + s.roundPage len < t.lim ∧
      s.free c.addr len = true then
    ({ s' with reserved := (c.addr, len) :: s.reserved }, .ok c.addr)
  else (s', .error c.code)

/-- `VirtualFree(addr, 0, MEM_RELEASE)` — called at src/os/windows.rs:136. -/
def virtualFree (s : Win) (addr : Nat) : Win :=
  { s.did (.virtualFree addr) with reserved := s.reserved.filter (fun r => decide (r.1 ≠ addr)) }

/-- A call of which only success and the error code matter here (`FlushViewOfFile`,
`FlushFileBuffers`).  Called at src/os/windows.rs:258,263. -/
def simple (s : Win) (c : WinCall) : Win × Except Nat Unit :=
  (s.did c, if s.choice.ok then .ok () else .error s.choice.code)

/-- The numbers of the pages that contain one of the `len` bytes from `addr` on.
Environment of src/os/windows.rs:239,300,319. -/
def pagesOf (s : Win) (addr len : Nat) : List Nat :=
  if len = 0 then [] else List.range' (addr / s.page) ((addr + len - 1) / s.page - addr / s.page + 1)

/-- May pages of a view that was mapped with this access get this protection?  (Windows documentation of
`VirtualProtect`: it must be compatible with the access the view was mapped with.  Whether Windows
grants `PAGE_READWRITE` for copy-on-write views is left open: it may here, and they stay
copy-on-write.)  Environment of src/os/windows.rs:239. -/
def compatible (a : WinAccess) : WinProt → Bool
  | .readonly => true
  | .readwrite => a.write || a.copy
  | .writecopy => true
  | .executeRead => a.exec

/-- `VirtualProtect(addr, len, prot, &old)` — called at src/os/windows.rs:239.  Refused unless each page is
of a view whose access is compatible.  Simplified: the access recorded with a view remains what it
was mapped with.  (Maps ask only for read and write access, which views for which it can be
granted have already; programs that take access away with `os::protect` are those of Model/WinGuard.) -/
def virtualProtect (s : Win) (addr len : Nat) (prot : WinProt) : Win × Except Nat Unit :=
  let s' := s.did (.virtualProtect addr len prot)
  if s.choice.ok = true ∧ (s.pagesOf addr len).all (fun q =>
      s.views.any (fun v => v.onPage s.page q && compatible v.access prot)) = true then (s', .ok ())
  else (s', .error s.choice.code)

/-- `VirtualLock(addr, len)` — called at src/os/windows.rs:300.  Refused unless each page is of a view.
There is no counting of locks. -/
def virtualLock (s : Win) (addr len : Nat) : Win × Except Nat Unit :=
  let s' := s.did (.virtualLock addr len)
  if s.choice.ok = true ∧ (s.pagesOf addr len).all (fun q => s.views.any (fun v => v.onPage s.page q)) = true then
    ({ s' with locked := fun q => s.locked q || (s.pagesOf addr len).contains q }, .ok ())
  else (s', .error s.choice.code)

/-- `VirtualUnlock(addr, len)` — called at src/os/windows.rs:319.  Refused unless each page is locked
(`ERROR_NOT_LOCKED`). -/
def virtualUnlock (s : Win) (addr len : Nat) : Win × Except Nat Unit :=
  let s' := s.did (.virtualUnlock addr len)
  if s.choice.ok = true ∧ (s.pagesOf addr len).all s.locked = true then
    ({ s' with locked := fun q => s.locked q && !(s.pagesOf addr len).contains q }, .ok ())
  else (s', .error s.choice.code)

/-- The view at an address.  Environment of src/os/windows.rs:56-63. -/
def look (s : Win) (a : Nat) : Option WinView :=
  s.views.find? (fun v => decide (v.base ≤ a ∧ a < v.base + v.len))

/-- Is the page of byte `i` of the section behind the end of its file?  (Windows does not let a file be
cut behind which there are views; other file systems may.  A file that is not open here keeps its
length.)  Environment of src/map.rs:420-434. -/
def lost (s : Win) (sec : Section) (i : Nat) : Bool :=
  match sec.file with
  | none => false
  | some f =>
    match s.files f with
    | none => false
    | some n => decide (n ≤ i / s.page * s.page)

/-- Reading a byte of memory: through the view at that address, the process's own copy if it has one.
Reading where there is no view, or where the file is gone, faults.
Environment of src/map.rs:420-427. -/
def load (s : Win) (a : Nat) : Exec Byte :=
  match s.look a with
  | none => .error .memory
  | some v =>
    match s.bytes.own v.sec.id a with
    | some b => .ok b
    | none =>
      if (v.access.read || v.access.copy) && !s.lost v.sec (v.off + (a - v.base)) then
        .ok (s.bytes.shown v.sec (v.off + (a - v.base)))
      else .error .memory

/-- Writing a byte of memory: with `FILE_MAP_WRITE` access, to the section; with `FILE_MAP_COPY`, the
whole page becomes the process's own first; otherwise it faults.
Environment of src/map.rs:429-434. -/
def store (s : Win) (a : Nat) (b : Byte) : Exec Win :=
  match s.look a with
  | none => .error .memory
  | some v =>
    let i := v.off + (a - v.base)
    if v.access.write then
      if s.lost v.sec i then .error .memory
      else
        match v.sec.file with
        | some f => .ok { s with bytes := { s.bytes with
            file := fun g j => if g = f ∧ j = i then b else s.bytes.file g j } }
        | none => .ok { s with bytes := { s.bytes with
            mem := fun x j => if x = v.sec.id ∧ j = i then b else s.bytes.mem x j } }
    else if v.access.copy then
      match s.load a with
      | .error e => .error e
      | .ok _ => .ok { s with bytes := { s.bytes with
          own := fun x a' =>
            if x = v.sec.id ∧ a' / s.page = a / s.page ∧ v.base ≤ a' ∧ a' < v.base + v.len then
              if a' = a then some b
              else
                match s.bytes.own x a' with
                | some c => some c
                | none => some (s.bytes.shown v.sec (v.off + (a' - v.base)))
            else s.bytes.own x a' } }
    else .error .memory

/-! ### The code -/

/-- `(x >> 16 >> 16) as DWORD` — src/os/windows.rs:38,59. -/
def hi32 (t : Target) (x : Nat) : Exec Nat := do
  let a ← shrU t x 16
  let b ← shrU t a 16
  return asU32 b

/-- `(x & 0xffffffff) as DWORD` — src/os/windows.rs:39,60. -/
def lo32 (x : Nat) : Nat := asU32 (x &&& 0xffffffff)

/-- `MapHandle::new` — src/os/windows.rs:33-47.  The result is the handle. -/
def handleNew (t : Target) (s : Win) (op : Operation) (file : Option Nat) (prot : WinProt)
    (len : Nat) : Exec (Win × Result Nat) := do
  let hi ← hi32 t len
  match s.createFileMapping file prot hi (lo32 len) with
  | (s, .error e) => return (s, .error (Error.lastOsError op e))
  | (s, .ok h) => return (s, .ok h)

/-- `MapHandle::view` and `MapHandle::view_ptr` — src/os/windows.rs:49-80. -/
def view (t : Target) (s : Win) (h : Nat) (op : Operation) (access : WinAccess) (off len at' : Nat) :
    Exec (Win × Result Nat) := do
  let hi ← hi32 t off
  match s.mapViewOfFileEx t h access hi (lo32 off) len at' with
  | (s, .error e) => return (s, .error (Error.lastOsError op e))
  | (s, .ok pg) => return (s, .ok pg)

/-- `Drop for MapHandle` — src/os/windows.rs:83-89. -/
def dropHandle (s : Win) (h : Nat) : Win := s.closeHandle h

/-- `system_info` — src/os/windows.rs:92-99. -/
def systemInfo (s : Win) : Nat × Nat := (s.page, s.gran)

/-- The protection and access of `map_file` — src/os/windows.rs:103-108. -/
def mapFileBits : Protect → WinProt × WinAccess
  | .readOnly => (.readonly, { read := true })
  | .readWrite => (.readwrite, { read := true, write := true })
  | .readCopy => (.writecopy, { copy := true })
  | .readExec => (.executeRead, { read := true, exec := true })

/-- `map_file` — src/os/windows.rs:102-114.  The handle is dropped on every way out. -/
def mapFile (t : Target) (s : Win) (file off len : Nat) (prot : Protect) :
    Exec (Win × Result Nat) := do
  let b := mapFileBits prot
  match ← s.handleNew t .mapFileHandle (some file) b.1 0 with
  | (s, .error e) => return (s, .error e)
  | (s, .ok h) =>
    let (s, r) ← s.view t h .mapFileView b.2 off len 0
    return (s.dropHandle h, r)

/-- The protection and access of `map_anon` — src/os/windows.rs:118-123. -/
def mapAnonBits : Protect → WinProt × WinAccess
  | .readOnly => (.readonly, { read := true })
  | .readWrite => (.readwrite, { read := true, write := true })
  | .readCopy => (.writecopy, { copy := true })
  | .readExec => (.executeRead, { read := true, exec := true })

/-- `map_anon` — src/os/windows.rs:117-129. -/
def mapAnon (t : Target) (s : Win) (len : Nat) (prot : Protect) : Exec (Win × Result Nat) := do
  let b := mapAnonBits prot
  match ← s.handleNew t .mapAnonymousHandle none b.1 len with
  | (s, .error e) => return (s, .error e)
  | (s, .ok h) =>
    let (s, r) ← s.view t h .mapAnonymousView b.2 0 len 0
    return (s.dropHandle h, r)

/-- `reserve` — src/os/windows.rs:131-139. -/
def reserve (t : Target) (s : Win) (len : Nat) : Win × Result Nat :=
  match s.virtualAlloc t len with
  | (s, .error e) => (s, .error (Error.lastOsError .ringAllocate e))
  | (s, .ok pg) => (s.virtualFree pg, .ok pg)

/-- `map_ring_handle` — src/os/windows.rs:142-157. -/
def mapRingHandle (t : Target) (s : Win) (h len pg : Nat) : Exec (Win × Result Nat) := do
  let rw : WinAccess := { read := true, write := true }
  match ← s.view t h .ringPrimary rw 0 len pg with
  | (s, .error e) => return (s, .error e)
  | (s, .ok a) =>
    match ← s.view t h .ringSecondary rw 0 len (ptrAdd t pg len) with
    | (s, .error e) => return ((s.unmapViewOfFile a).1, .error e)
    | (s, .ok _) => return (s, .ok a)

/-- The loop of `map_ring` — src/os/windows.rs:169-177, where `left` is `5 - n`: how often it may
still go round again. -/
def mapRingLoop (t : Target) : Nat → Win → (h len full : Nat) → Exec (Win × Result Nat)
  | left, s, h, len, full =>
    match s.reserve t full with
    | (s, .error e) => return (s, .error e)
    | (s, .ok pg) => do
      match ← s.mapRingHandle t h len pg with
      | (s, .ok a) => return (s, .ok a)
      | (s, .error e) =>
        match left with
        | 0 => return (s, .error e)
        | left + 1 => mapRingLoop t left s h len full

/-- `map_ring` — src/os/windows.rs:165-178.  The handle is dropped on every way out. -/
def mapRing (t : Target) (s : Win) (len : Nat) : Exec (Win × Result Nat) := do
  let full ← mulU t 2 len
  match ← s.handleNew t .ringAllocate none .readwrite full with
  | (s, .error e) => return (s, .error e)
  | (s, .ok h) =>
    let (s, r) ← mapRingLoop t 5 s h len full
    return (s.dropHandle h, r)

/-- `unmap` — src/os/windows.rs:191-197.  `UnmapViewOfFile` returns non-zero on success, which is
what this function takes for failure; the code in the error is then whatever `GetLastError()`
happens to hold (0 here). -/
def unmap (s : Win) (pg _len : Nat) : Win × Result Unit :=
  match s.unmapViewOfFile pg with
  | (s, .ok ()) => (s, .error (Error.lastOsError .unmap 0))
  | (s, .error _) => (s, .ok ())

/-- `unmap_ring` — src/os/windows.rs:211-218. -/
def unmapRing (t : Target) (s : Win) (pg len : Nat) : Win × Result Unit :=
  match s.unmapViewOfFile (ptrAdd t pg len) with
  | (s, .error e) => (s, .error (Error.lastOsError .ringDeallocate e))
  | (s, .ok ()) => ((s.unmapViewOfFile pg).1, .ok ())

/-- The protection of `protect` — src/os/windows.rs:232-237. -/
def protectBits : Protect → WinProt
  | .readOnly => .readonly
  | .readWrite => .readwrite
  | .readCopy => .readwrite
  | .readExec => .executeRead

/-- A failing call's code wrapped by `Error::last_os_error(op)` (the `if .. == 0 { Err(..) }`
pattern of src/os/windows.rs). -/
def wrap (op : Operation) (r : Win × Except Nat Unit) : Win × Result Unit :=
  match r with
  | (s, .ok ()) => (s, .ok ())
  | (s, .error e) => (s, .error (Error.lastOsError op e))

/-- `protect` — src/os/windows.rs:231-244. -/
def protect (s : Win) (pg len : Nat) (prot : Protect) : Win × Result Unit :=
  wrap .protect (s.virtualProtect pg len (protectBits prot))

/-- `flush` — src/os/windows.rs:257-272. -/
def flush (s : Win) (pg file len : Nat) (mode : FlushMode) : Win × Result Unit :=
  match s.simple (.flushViewOfFile pg len) with
  | (s, .error e) => (s, .error (Error.lastOsError .flush e))
  | (s, .ok ()) =>
    match mode with
    | .sync => wrap .flush (s.simple (.flushFileBuffers file))
    | .async => (s, .ok ())

/-- `advise` — src/os/windows.rs:284-286. -/
def advise (s : Win) (_pg _len : Nat) (_adv : Advise) : Win × Result Unit := (s, .ok ())

/-- `lock` — src/os/windows.rs:299-305. -/
def lock (s : Win) (pg len : Nat) : Win × Result Unit := wrap .lock (s.virtualLock pg len)

/-- `unlock` — src/os/windows.rs:318-324. -/
def unlock (s : Win) (pg len : Nat) : Win × Result Unit :=
  wrap .unlock (s.virtualUnlock pg len)

/-! ### Maps on Windows -/

/-- `Size::page()` — src/lib.rs:312-314. -/
def sizePage (s : Win) : Size := Size.withSize s.systemInfo.1

/-- `Size::alloc()` — src/lib.rs:321-323. -/
def sizeAlloc (s : Win) : Size := Size.withSize s.systemInfo.2

/-- `map_if` from where the file's length is known — src/map.rs:1199-1214 (compare
`Options.mapStep`). -/
def mapStep (t : Target) (s : Win) (o : Options) (file flen : Nat) :
    Exec (Win × Result (Option MapMut)) := do
  let off := o.offset
  if flen < off then return (s, .ok none)
  else
    let max ← subU t flen off
    match Options.mapLen o.len max with
    | none => return (s, .ok none)
    | some len =>
      let mapoff ← s.sizeAlloc.truncate t off
      let d ← subU t off mapoff
      let maplen ← addU t len d
      match ← s.mapFile t file mapoff maplen o.protect with
      | (s, .error e) => return (s, .error e)
      | (s, .ok ptr) => return (s, .ok (some (MapMut.fromPtr (ptrAdd t ptr d) len)))

/-- `alloc`, the length — src/map.rs:1232-1236. -/
def allocLen (t : Target) (s : Win) (e : Extent) (off : Nat) : Exec Nat :=
  match e with
  | .endOf => do
    let n ← addU t off 1
    let r ← s.sizeAlloc.round t n
    subU t r off
  | .min l => do
    let n ← addU t off l
    let r ← s.sizeAlloc.round t n
    subU t r off
  | .max l => return l
  | .exact l => return l

/-- `Options::alloc` — src/map.rs:1230-1240. -/
def alloc (t : Target) (s : Win) (o : Options) : Exec (Win × Result MapMut) := do
  let off ← s.sizePage.offset t o.offset
  let len ← s.allocLen t o.len off
  let n ← addU t off len
  match ← s.mapAnon t n o.protect with
  | (s, .error e) => return (s, .error e)
  | (s, .ok ptr) => return (s, .ok (MapMut.fromPtr (ptrAdd t ptr off) len))

/-- `Drop for MapMut` — src/map.rs:409-418; the result of `unmap` is ignored. -/
def dropMap (t : Target) (s : Win) (m : MapMut) : Exec Win := do
  if m.len > 0 then
    let (ptr, len) ← s.sizeAlloc.bounds t m.ptr m.len
    return (s.unmap ptr len).1
  else return s

end Win
end Vmap
