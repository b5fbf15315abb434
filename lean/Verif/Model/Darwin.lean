import Verif.Model.RingMap
/-
src/os/unix/mach.rs on the same kernel state as maps and posix rings: for whole programs on macOS and
iOS.  (Model/Mach.lean has the same functions on a state of their own, with what a child process
inherits and with port names; here the pages also have protections and contents.)
-/
namespace Vmap

namespace Kernel

/-- `vm_allocate(task, &mut addr, size, VM_FLAGS_ANYWHERE)` — called at src/os/unix/mach.rs:85: new
zero-filled memory at unused pages of the kernel's choice.  A failure has a non-zero code. -/
def vmAllocateCore (t : Target) (k : Kernel) (size : Nat) : Sys Nat :=
  let c := k.now
  let k := k.tock
  let n := k.pages size
  if c.ok = true ∧ c.page ≠ 0 ∧ (c.page + n) * k.page < t.lim ∧ k.rangeFree c.page n = true then
    ((k.newObj (n * k.page)).mapRange c.page n k.fresh 0 Unix.protRW true true, .ok (c.page * k.page))
  else (k, .error (c.errno + 1))

/-- `vm_allocate(.., VM_FLAGS_ANYWHERE)`, recorded in the log.  Called at src/os/unix/mach.rs:85. -/
def vmAllocate (t : Target) (k : Kernel) (size : Nat) : Sys Nat :=
  record (.vmAllocate size) id (vmAllocateCore t k size)

/-- `vm_allocate(task, &mut addr, size, VM_FLAGS_FIXED | VM_FLAGS_OVERWRITE)` — called at
src/os/unix/mach.rs:90: new zero-filled memory in place of whatever was there, inside the
address space. -/
def vmAllocateAtCore (t : Target) (k : Kernel) (addr size : Nat) : Sys Unit :=
  let c := k.now
  let k := k.tock
  let n := k.pages size
  if c.ok = true ∧ addr % k.page = 0 ∧ addr + size < t.lim then
    ((k.newObj (n * k.page)).mapRange (addr / k.page) n k.fresh 0 Unix.protRW true true, .ok ())
  else (k, .error (c.errno + 1))

/-- `vm_allocate(.., VM_FLAGS_FIXED | VM_FLAGS_OVERWRITE)`, recorded in the log.
Called at src/os/unix/mach.rs:90. -/
def vmAllocateAt (t : Target) (k : Kernel) (addr size : Nat) : Sys Unit :=
  record (.vmAllocateAt addr size) (fun _ => 0) (vmAllocateAtCore t k addr size)

/-- `vm_deallocate(task, addr, size)` — called at src/os/unix/mach.rs:93,102,125,146.  Succeeds
for a range inside the address space, mapped or not; a range that wraps around is refused with
`KERN_INVALID_ARGUMENT` (4). -/
def vmDeallocateCore (t : Target) (k : Kernel) (addr size : Nat) : Sys Unit :=
  let k := k.tock
  if addr + size < t.lim then (k.clearRange (addr / k.page) (k.pages size), .ok ())
  else (k, .error 4)

/-- `vm_deallocate`, recorded in the log.  Called at src/os/unix/mach.rs:93,102,125,146. -/
def vmDeallocate (t : Target) (k : Kernel) (addr size : Nat) : Sys Unit :=
  record (.vmDeallocate addr size) (fun _ => 0) (vmDeallocateCore t k addr size)

/-- `mach_make_memory_entry(task, &mut size, addr, VM_PROT_DEFAULT, &mut port, 0)` — called at
src/os/unix/mach.rs:99: a port right for the memory at `addr`, added to those the process
holds; the size comes back rounded to pages.  A size of zero is refused. -/
def memoryEntryCore (k : Kernel) (size addr : Nat) : Sys (Nat × Nat) :=
  let c := k.now
  let k := k.tock
  match k.pt (addr / k.page) with
  | some e =>
    if c.ok = true ∧ size ≠ 0 then
      ({ k with ports := k.ports ++ [(e.obj, e.idx)] }, .ok (k.pages size * k.page, k.ports.length))
    else (k, .error (c.errno + 1))
  | none => (k, .error (c.errno + 1))

/-- `mach_make_memory_entry`, recorded in the log (with the port it returns).
Called at src/os/unix/mach.rs:99. -/
def memoryEntry (k : Kernel) (size addr : Nat) : Sys (Nat × Nat) :=
  record (.memoryEntry addr size) Prod.snd (memoryEntryCore k size addr)

/-- `vm_map(task, &mut addr, size, 0, VM_FLAGS_FIXED | VM_FLAGS_OVERWRITE, port, 0, false, …)` —
called at src/os/unix/mach.rs:109-121: the memory of the port, shared, in place of whatever
was there, inside the address space. -/
def vmMapCore (t : Target) (k : Kernel) (addr size port : Nat) : Sys Unit :=
  let c := k.now
  let k := k.tock
  match k.ports[port]? with
  | some e =>
    if c.ok = true ∧ addr % k.page = 0 ∧ addr + size < t.lim then
      (k.mapRange (addr / k.page) (k.pages size) e.1 e.2 Unix.protRW true true, .ok ())
    else (k, .error (c.errno + 1))
  | none => (k, .error (c.errno + 1))

/-- `vm_map`, recorded in the log.  Called at src/os/unix/mach.rs:109-121. -/
def vmMap (t : Target) (k : Kernel) (addr size port : Nat) : Sys Unit :=
  record (.vmMap addr size port) (fun _ => 0) (vmMapCore t k addr size port)

end Kernel

namespace Darwin

/-- `map_ring` — src/os/unix/mach.rs:79-131.  (`2 * len` occurs four times; it is the same value
each time, except that `len` is what `mach_make_memory_entry` made of it in the last.) -/
def mapRing (t : Target) (k : Kernel) (len : Nat) : Exec (Kernel × Result Nat) := do
  let full ← mulU t 2 len
  match k.vmAllocate t full with
  | (k, .error code) => return (k, .error (Error.kernel .ringAllocate code))
  | (k, .ok addr) =>
    match k.vmAllocateAt t addr len with
    | (k, .error code) => return ((k.vmDeallocate t addr full).1, .error (Error.kernel .ringPrimary code))
    | (k, .ok ()) =>
      match k.memoryEntry len addr with
      | (k, .error code) => return ((k.vmDeallocate t addr full).1, .error (Error.kernel .ringEntry code))
      | (k, .ok (len, port)) =>
        let half ← addU t addr len
        match k.vmMap t half len port with
        | (k, .error code) => do
          let full ← mulU t 2 len
          return ((k.vmDeallocate t addr full).1, .error (Error.kernel .ringSecondary code))
        | (k, .ok ()) => return (k, .ok addr)

/-- `unmap_ring` — src/os/unix/mach.rs:144-152. -/
def unmapRing (t : Target) (k : Kernel) (pg len : Nat) : Exec (Kernel × Result Unit) := do
  let full ← mulU t 2 len
  match k.vmDeallocate t pg full with
  | (k, .error code) => return (k, .error (Error.kernel .ringDeallocate code))
  | (k, .ok ()) => return (k, .ok ())

end Darwin

/-- Which `map_ring` the crate has: that of mach.rs on macOS and iOS, otherwise that of posix —
src/os/unix/mod.rs:17-29. -/
def Os.mapRing (t : Target) (k : Kernel) (len : Nat) : Exec (Kernel × Result Nat) :=
  if k.mach = true then Darwin.mapRing t k len else Posix.mapRing t k len

/-- Which `unmap_ring` the crate has — src/os/unix/mod.rs:17-29. -/
def Os.unmapRing (t : Target) (k : Kernel) (pg len : Nat) : Exec (Kernel × Result Unit) :=
  if k.mach = true then Darwin.unmapRing t k pg len else Posix.unmapRing t k pg len

end Vmap
