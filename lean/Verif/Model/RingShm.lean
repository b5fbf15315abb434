import Verif.Model.Ring
import Verif.Model.Memfd
/-
Rings on unix targets that have neither `memfd_create` nor `SHM_ANON` (NetBSD, OpenBSD, illumos, …):
src/os/unix/posix/mod.rs over the third variant of `memfd_open`, src/os/unix/posix/memfd.rs:33-61.
Model/Memfd has that function alone; here it runs on the kernel that `map_ring` goes on with.
-/
namespace Vmap

/-- The kernel, which shared-memory names exist, and the clock when the kernel has answered so many
calls.  Other processes do not act between the calls of one process (that somebody else took
the name at the last moment is one of the failures the kernel can choose).
Environment of src/os/unix/posix/memfd.rs:38-60. -/
structure ShmKernel where
  k : Kernel
  taken : List Byte → Bool
  clock : Nat → Int

/-- `shm_open(path, O_RDWR | O_CREAT | O_EXCL | O_CLOEXEC, 0o600)` — called at
src/os/unix/posix/memfd.rs:50: `EEXIST` if the name exists, otherwise a new empty object under that
name, or a failure of the kernel's choice.  The log has it as `memfd`. -/
def ShmKernel.shmOpen (w : ShmKernel) (path : List Byte) : ShmKernel × Except Errno Nat :=
  if w.taken path then
    let (k, r) := Kernel.record .memfd id (w.k.tock, (.error EEXIST : Except Errno Nat))
    ({ w with k }, r)
  else
    match w.k.memfdCreate with
    | (k, .error e) => ({ w with k }, .error e)
    | (k, .ok fd) => ({ w with k, taken := fun n => n == path || w.taken n }, .ok fd)

/-- `shm_unlink(path)` — called at src/os/unix/posix/memfd.rs:57 (the result is ignored). -/
def ShmKernel.shmUnlink (w : ShmKernel) (path : List Byte) : ShmKernel :=
  { w with taken := fun n => n != path && w.taken n }

namespace Posix

/-- `memfd_open` (fallback) from the loop on — src/os/unix/posix/memfd.rs:38-60.  `none`: still looping
after `rounds` rounds. -/
def shmLoop : Nat → ShmKernel → List Byte → Exec (ShmKernel × Option (Result Nat))
  | 0, w, _ => return (w, none)
  | rounds + 1, w, buf => do
    let (buf, path) ← shmPath (w.clock w.k.tick) buf
    match w.shmOpen path with
    | (w, .error e) =>
      let err := Error.lastOsError .memoryFd e
      if err.rawOsError ≠ some EEXIST then return (w, some (.error err))
      else shmLoop rounds w buf
    | (w, .ok fd) => return (w.shmUnlink path, some (.ok fd))

/-- `tmp_open` — src/os/unix/posix/mod.rs:91-102 — over the fallback `memfd_open`
(src/os/unix/posix/memfd.rs:33-61). -/
def tmpOpenShm (t : Target) (rounds : Nat) (w : ShmKernel) (size : Nat) :
    Exec (ShmKernel × Option (Result Nat)) := do
  match ← shmLoop rounds w pathBytes with
  | (w, none) => return (w, none)
  | (w, some (.error e)) => return (w, some (.error e))
  | (w, some (.ok fd)) =>
    match w.k.ftruncate t fd size with
    | (k, .error errno) =>
      let err := Error.lastOsError .memoryFd errno
      return ({ w with k := k.close fd }, some (.error err))
    | (k, .ok ()) => return ({ w with k }, some (.ok fd))

/-- `map_ring` — src/os/unix/posix/mod.rs:22-30 — over the fallback `memfd_open`. -/
def mapRingShm (t : Target) (rounds : Nat) (w : ShmKernel) (len : Nat) :
    Exec (ShmKernel × Option (Result Nat)) := do
  match ← tmpOpenShm t rounds w len with
  | (w, none) => return (w, none)
  | (w, some (.error e)) => return (w, some (.error e))
  | (w, some (.ok fd)) => do
    let (k, ret) ← wrapFd t w.k len fd
    return ({ w with k := k.close fd }, some ret)

end Posix

/-- `Ring::new` — src/io/ring.rs:72-81 — over the fallback `memfd_open`; `none`: still looking for a free
name after `rounds` rounds. -/
def Ring.newShm (t : Target) (rounds : Nat) (w : ShmKernel) (hint : Nat) :
    Exec (ShmKernel × Option (Result Ring)) := do
  let len ← (Size.withSize (Unix.systemInfo w.k).2).round t hint
  match ← Posix.mapRingShm t rounds w len with
  | (w, none) => return (w, none)
  | (w, some (.error e)) => return (w, some (.error e))
  | (w, some (.ok ptr)) => return (w, some (.ok { ptr, len, rpos := 0, wpos := 0 }))

/-- `InfiniteRing::new` — src/io/ring.rs:233-242 — over the fallback `memfd_open`. -/
def InfiniteRing.newShm (t : Target) (rounds : Nat) (w : ShmKernel) (hint : Nat) :
    Exec (ShmKernel × Option (Result InfiniteRing)) := do
  let len ← (Size.withSize (Unix.systemInfo w.k).2).round t hint
  match ← Posix.mapRingShm t rounds w len with
  | (w, none) => return (w, none)
  | (w, some (.error e)) => return (w, some (.error e))
  | (w, some (.ok ptr)) => return (w, some (.ok { ptr, len, rlen := 0, wpos := 0 }))

end Vmap
