import Verif.Model.Darwin
/-
src/os/unix/mach.rs:79-131 once more: `map_ring` on macOS and iOS cut into its kernel calls, so that
other threads can act in between.  `C148_alone` (Props/MachJob.lean) ties this to `Darwin.mapRing`.
-/
namespace Vmap

/-- Where a thread is inside `map_ring`: the kernel call it makes next.
src/os/unix/mach.rs:79-131. -/
inductive MachJob
  /-- `vm_allocate` of twice the length, anywhere — src/os/unix/mach.rs:85 -/
  | allocate (len : Nat)
  /-- `vm_allocate` over the first half — src/os/unix/mach.rs:90 -/
  | overwrite (len addr : Nat)
  /-- `mach_make_memory_entry` — src/os/unix/mach.rs:99 -/
  | entry (len addr : Nat)
  /-- `vm_map` over the second half — src/os/unix/mach.rs:108-121 -/
  | second (len addr port : Nat)
  /-- `vm_deallocate` after a failure — src/os/unix/mach.rs:93,102,125 -/
  | undo (addr full : Nat) (err : Error)
  /-- returned -/
  | done (ret : Result Nat)

namespace MachJob

/-- The next kernel call and what the code does with its result, up to the call after it.
src/os/unix/mach.rs:79-131. -/
def step (t : Target) (k : Kernel) : MachJob → Exec (Kernel × MachJob)
  | .allocate len => do
    let full ← mulU t 2 len
    match k.vmAllocate t full with
    | (k, .error code) => return (k, .done (.error (Error.kernel .ringAllocate code)))
    | (k, .ok addr) => return (k, .overwrite len addr)
  | .overwrite len addr =>
    match k.vmAllocateAt t addr len with
    | (k, .error code) => do
      let full ← mulU t 2 len
      return (k, .undo addr full (Error.kernel .ringPrimary code))
    | (k, .ok ()) => return (k, .entry len addr)
  | .entry len addr =>
    match k.memoryEntry len addr with
    | (k, .error code) => do
      let full ← mulU t 2 len
      return (k, .undo addr full (Error.kernel .ringEntry code))
    | (k, .ok (len, port)) => return (k, .second len addr port)
  | .second len addr port => do
    let half ← addU t addr len
    match k.vmMap t half len port with
    | (k, .error code) => do
      let full ← mulU t 2 len
      return (k, .undo addr full (Error.kernel .ringSecondary code))
    | (k, .ok ()) => return (k, .done (.ok addr))
  | .undo addr full err => return ((k.vmDeallocate t addr full).1, .done (.error err))
  | .done ret => return (k, .done ret)

/-- `n` calls in a row, with nothing in between.  src/os/unix/mach.rs:79-131. -/
def run (t : Target) (k : Kernel) (j : MachJob) : Nat → Exec (Kernel × MachJob)
  | 0 => .ok (k, j)
  | n + 1 => do
    let (k, j) ← j.step t k
    run t k j n

end MachJob
end Vmap
