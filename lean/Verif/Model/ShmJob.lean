import Verif.Model.Memfd
/-
src/os/unix/posix/memfd.rs:33-61 once more: `memfd_open` on targets without memfd cut into its system
calls, so that other processes and threads, which use the same name space, can act in between.
`C149_alone` (Props/ShmJob.lean) ties this to `memfdOpen` of Model/Memfd.lean.
-/
namespace Vmap

/-- The name space of shared-memory objects, which all processes have in common: the object each name
stands for, and where unused object numbers begin.
Environment of src/os/unix/posix/memfd.rs:38-60. -/
structure ShmSpace where
  names : List Byte → Option Obj
  fresh : Obj

/-- `shm_open(path, O_RDWR | O_CREAT | O_EXCL | O_CLOEXEC, 0o600)` — called at
src/os/unix/posix/memfd.rs:50.  `fail` is an error for a reason other than the name.  The descriptor is
stood for by the object it leads to. -/
def ShmSpace.open (s : ShmSpace) (fail : Option Errno) (path : List Byte) :
    ShmSpace × Except Errno Obj :=
  match fail with
  | some e => (s, .error e)
  | none =>
    if (s.names path).isSome then (s, .error EEXIST)
    else (⟨fun n => if n = path then some s.fresh else s.names n, s.fresh + 1⟩, .ok s.fresh)

/-- `shm_unlink(path)` — called at src/os/unix/posix/memfd.rs:57: the name goes, whatever object it
stands for (the result is ignored). -/
def ShmSpace.unlink (s : ShmSpace) (path : List Byte) : ShmSpace :=
  { s with names := fun n => if n = path then none else s.names n }

/-- Where a thread is inside `memfd_open`: the system call it makes next.
src/os/unix/posix/memfd.rs:33-61. -/
inductive ShmJob
  /-- `shm_open`; `buf` is `path_bytes` before the round — src/os/unix/posix/memfd.rs:38-50 -/
  | open (buf : List Byte)
  /-- `shm_unlink` of the name under which object `fd` was created — src/os/unix/posix/memfd.rs:57 -/
  | unlink (path : List Byte) (fd : Obj)
  /-- returned -/
  | done (ret : Result Obj)

namespace ShmJob

/-- The next system call and what the code does with its result, up to the call after it; the clock shows
`now`.  src/os/unix/posix/memfd.rs:33-61. -/
def step (now : Int) (fail : Option Errno) (s : ShmSpace) : ShmJob → Exec (ShmSpace × ShmJob)
  | .open buf => do
    let (buf, path) ← shmPath now buf
    match s.open fail path with
    | (s, .error e) =>
      let err := Error.lastOsError .memoryFd e
      if err.rawOsError ≠ some EEXIST then return (s, .done (.error err))
      else return (s, .open buf)
    | (s, .ok fd) => return (s, .unlink path fd)
  | .unlink path fd => return (s.unlink path, .done (.ok fd))
  | .done ret => return (s, .done ret)

/-- `n` calls in a row, with nothing in between; `clock` and `fail` from `tick` on.
src/os/unix/posix/memfd.rs:33-61. -/
def run (clock : Nat → Int) (fail : Nat → Option Errno) (tick : Nat) (s : ShmSpace) (j : ShmJob) :
    Nat → Exec (ShmSpace × ShmJob)
  | 0 => .ok (s, j)
  | n + 1 => do
    let (s, j) ← j.step (clock tick) (fail tick) s
    run clock fail (tick + 1) s j n

end ShmJob
end Vmap
