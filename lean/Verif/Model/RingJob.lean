import Verif.Model.RingMap
/-
src/os/unix/posix/mod.rs:22-102 once more: `map_ring` cut into its system calls, so that other
threads can act in between.  `C110_alone` (Props/Threads.lean) ties this to `Posix.mapRing`.
-/
namespace Vmap

/-- Where a thread is inside `map_ring`: the system call it makes next.
src/os/unix/posix/mod.rs:22-102. -/
inductive RingJob
  /-- `memfd_create` — src/os/unix/posix/memfd.rs:10 -/
  | memfd (len : Nat)
  /-- `ftruncate` — src/os/unix/posix/mod.rs:93 -/
  | size (len fd : Nat)
  /-- `close` after a failed `ftruncate` — src/os/unix/posix/mod.rs:96 -/
  | abandon (fd : Nat) (err : Error)
  /-- `mmap` of twice the length, anywhere — src/os/unix/posix/mod.rs:35 -/
  | reserve (len fd : Nat)
  /-- `mmap` over the first half — src/os/unix/posix/mod.rs:54 -/
  | first (len fd pg : Nat)
  /-- `mmap` over the second half — src/os/unix/posix/mod.rs:55 -/
  | second (len fd pg : Nat)
  /-- `munmap` of both halves after a failure — src/os/unix/posix/mod.rs:44 -/
  | undo (len fd pg : Nat) (err : Error)
  /-- `close` — src/os/unix/posix/mod.rs:27 -/
  | finish (fd : Nat) (ret : Result Nat)
  /-- returned -/
  | done (ret : Result Nat)

namespace RingJob

/-- The next system call and what the code does with its result, up to the call after it.
src/os/unix/posix/mod.rs:22-102. -/
def step (t : Target) (k : Kernel) : RingJob → Exec (Kernel × RingJob)
  | .memfd len =>
    match Posix.memfdOpen k with
    | (k, .error e) => return (k, .done (.error e))
    | (k, .ok fd) => return (k, .size len fd)
  | .size len fd =>
    match k.ftruncate t fd len with
    | (k, .error errno) => return (k, .abandon fd (Error.lastOsError .memoryFd errno))
    | (k, .ok ()) => return (k, .reserve len fd)
  | .abandon fd err => return (k.close fd, .done (.error err))
  | .reserve len fd => do
    let n ← mulU t len 2
    match Posix.map t k .ringAllocate 0 n { priv := true, anon := true } none with
    | (k, .error e) => return (k, .finish fd (.error e))
    | (k, .ok pg) => return (k, .first len fd pg)
  | .first len fd pg =>
    match Posix.map t k .ringPrimary pg len { shared := true, fixed := true } (some fd) with
    | (k, .error e) => return (k, .undo len fd pg e)
    | (k, .ok _) => return (k, .second len fd pg)
  | .second len fd pg =>
    match Posix.map t k .ringSecondary (pg + len) len { shared := true, fixed := true }
        (some fd) with
    | (k, .error e) => return (k, .undo len fd pg e)
    | (k, .ok _) => return (k, .finish fd (.ok pg))
  | .undo len fd pg err => do
    let (k, _) ← Posix.unmapRing t k pg len
    return (k, .finish fd (.error err))
  | .finish fd ret => return (k.close fd, .done ret)
  | .done ret => return (k, .done ret)

/-- `n` calls in a row, with nothing in between.  src/os/unix/posix/mod.rs:22-102. -/
def run (t : Target) (k : Kernel) (j : RingJob) : Nat → Exec (Kernel × RingJob)
  | 0 => .ok (k, j)
  | n + 1 => do
    let (k, j) ← j.step t k
    run t k j n

/-- The descriptor a job has open (`fd` in src/os/unix/posix/mod.rs:22-102). -/
def fd : RingJob → Option Nat
  | .size _ fd => some fd
  | .abandon fd _ => some fd
  | .reserve _ fd => some fd
  | .first _ fd _ => some fd
  | .second _ fd _ => some fd
  | .undo _ fd _ _ => some fd
  | .finish fd _ => some fd
  | _ => none

end RingJob
end Vmap
