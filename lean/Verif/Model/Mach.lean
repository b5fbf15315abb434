import Verif.Model.Error
/-
Rings on macOS and iOS — src/os/unix/mach.rs.
-/
namespace Vmap

/-- What the Mach kernel is free to decide at one call: whether it succeeds, the (non-zero) code
with which it fails, and the page number it picks.  Environment of src/os/unix/mach.rs:79-152. -/
structure MachChoice where
  ok : Bool
  code : Nat
  page : Nat

/-- The part of a task that ring creation uses: the page size, which page shows which page of which
memory object, the memory-entry port rights the task holds (port ↦ object and page in it), the
next unused object and port, the number of calls so far, the kernel's choices, and which pages a
child process gets a copy of (`VM_INHERIT_COPY`, the default; otherwise `VM_INHERIT_NONE`).
Protections are not modelled: every page involved has `VM_PROT_DEFAULT`
(src/os/unix/mach.rs:26,99,118-119). -/
structure Mach where
  page : Nat
  pt : Nat → Option (Nat × Nat)
  ports : Nat → Option (Nat × Nat)
  fresh : Nat
  nextPort : Nat
  tick : Nat
  oracle : Nat → MachChoice
  heir : Nat → Bool

namespace Mach

/-- Pages needed for `size` bytes (Mach rounds sizes up to whole pages).
Environment of src/os/unix/mach.rs:79-152. -/
def pages (s : Mach) (size : Nat) : Nat := (size + s.page - 1) / s.page

/-- One more call has been made.  Environment of src/os/unix/mach.rs:79-152. -/
def tock (s : Mach) : Mach := { s with tick := s.tick + 1 }

/-- Let pages `p ..< p + n` show object `o` from page `i` on, inherited by a child or not.
Environment of src/os/unix/mach.rs:79-152. -/
def mapRange (s : Mach) (p n o i : Nat) (heir : Bool) : Mach :=
  { s with
    pt := fun q => if p ≤ q ∧ q < p + n then some (o, i + (q - p)) else s.pt q
    heir := fun q => if p ≤ q ∧ q < p + n then heir else s.heir q }

/-- Are pages `p ..< p + n` unused?.  Environment of src/os/unix/mach.rs:79-152. -/
def rangeFree (s : Mach) (p : Nat) : Nat → Bool
  | 0 => true
  | n + 1 => (s.pt p).isNone && s.rangeFree (p + 1) n

/-- A kernel return code for a failure (never `KERN_SUCCESS`).
Environment of src/os/unix/mach.rs:79-152. -/
def failCode (c : MachChoice) : Nat := c.code + 1

/-- `vm_allocate(task, &mut addr, size, VM_FLAGS_ANYWHERE)` — called at src/os/unix/mach.rs:85: new
zero-filled memory at unused pages of the kernel's choice. -/
def vmAllocateAnywhere (t : Target) (s : Mach) (size : Nat) : Mach × Except Nat Nat :=
  let c := s.oracle s.tick
  let n := s.pages size
  if c.ok = true ∧ c.page ≠ 0 ∧ (c.page + n) * s.page < t.lim ∧ s.rangeFree c.page n = true then
    ({ (s.tock.mapRange c.page n s.fresh 0 true) with fresh := s.fresh + 1 }, .ok (c.page * s.page))
  else (s.tock, .error (failCode c))

/-- `vm_allocate(task, &mut addr, size, VM_FLAGS_FIXED | VM_FLAGS_OVERWRITE)` — called at
src/os/unix/mach.rs:90: new zero-filled memory in place of whatever was there, inside the
address space. -/
def vmAllocateFixed (t : Target) (s : Mach) (addr size : Nat) : Mach × Except Nat Unit :=
  let c := s.oracle s.tick
  if c.ok = true ∧ addr % s.page = 0 ∧ addr + size < t.lim then
    ({ (s.tock.mapRange (addr / s.page) (s.pages size) s.fresh 0 true) with fresh := s.fresh + 1 }, .ok ())
  else (s.tock, .error (failCode c))

/-- `vm_deallocate(task, addr, size)` — called at src/os/unix/mach.rs:93,102,125,146.  Succeeds
for a range inside the address space, mapped or not; a range that wraps around is refused with
`KERN_INVALID_ARGUMENT` (4). -/
def vmDeallocate (t : Target) (s : Mach) (addr size : Nat) : Mach × Except Nat Unit :=
  let p := addr / s.page
  let n := s.pages size
  if addr + size < t.lim then
    ({ s.tock with pt := fun q => if p ≤ q ∧ q < p + n then none else s.pt q }, .ok ())
  else (s.tock, .error 4)

/-- `mach_make_memory_entry(task, &mut size, addr, VM_PROT_DEFAULT, &mut port, 0)` — called at
src/os/unix/mach.rs:99: a port right for the memory at `addr`; the size comes back rounded to
pages.  (A size of zero is refused; the address is then 0 in reality, where nothing is mapped,
because that is what `vm_allocate` returns for zero bytes.) -/
def makeMemoryEntry (s : Mach) (size addr : Nat) : Mach × Except Nat (Nat × Nat) :=
  let c := s.oracle s.tick
  match s.pt (addr / s.page) with
  | some e =>
    if c.ok = true ∧ size ≠ 0 then
      ({ s.tock with
          ports := fun q => if q = s.nextPort then some e else s.ports q
          nextPort := s.nextPort + 1 }, .ok (s.pages size * s.page, s.nextPort))
    else (s.tock, .error (failCode c))
  | none => (s.tock, .error (failCode c))

/-- `vm_map(task, &mut addr, size, 0, VM_FLAGS_FIXED | VM_FLAGS_OVERWRITE, port, 0, false, …)` —
called at src/os/unix/mach.rs:109-121: the memory of the port, shared, in place of whatever
was there, inside the address space; `VM_INHERIT_NONE`: a child process has nothing there. -/
def vmMap (t : Target) (s : Mach) (addr size port : Nat) : Mach × Except Nat Unit :=
  let c := s.oracle s.tick
  match s.ports port with
  | some e =>
    if c.ok = true ∧ addr % s.page = 0 ∧ addr + size < t.lim then
      (s.tock.mapRange (addr / s.page) (s.pages size) e.1 e.2 false, .ok ())
    else (s.tock, .error (failCode c))
  | none => (s.tock, .error (failCode c))

/-- `map_ring` — src/os/unix/mach.rs:79-131.  (`2 * len` occurs four times; it is the same value
each time, except that `len` is what `mach_make_memory_entry` made of it in the last two.) -/
def mapRing (t : Target) (s : Mach) (len : Nat) : Exec (Mach × Result Nat) := do
  let full ← mulU t 2 len
  match s.vmAllocateAnywhere t full with
  | (s, .error code) => return (s, .error (Error.kernel .ringAllocate code))
  | (s, .ok addr) =>
    match s.vmAllocateFixed t addr len with
    | (s, .error code) => return ((s.vmDeallocate t addr full).1, .error (Error.kernel .ringPrimary code))
    | (s, .ok ()) =>
      match s.makeMemoryEntry len addr with
      | (s, .error code) => return ((s.vmDeallocate t addr full).1, .error (Error.kernel .ringEntry code))
      | (s, .ok (len, port)) =>
        let half ← addU t addr len
        match s.vmMap t half len port with
        | (s, .error code) => do
          let full ← mulU t 2 len
          return ((s.vmDeallocate t addr full).1, .error (Error.kernel .ringSecondary code))
        | (s, .ok ()) => return (s, .ok addr)

/-- `unmap_ring` — src/os/unix/mach.rs:144-152. -/
def unmapRing (t : Target) (s : Mach) (pg len : Nat) : Exec (Mach × Result Unit) := do
  let full ← mulU t 2 len
  match s.vmDeallocate t pg full with
  | (s, .error code) => return (s, .error (Error.kernel .ringDeallocate code))
  | (s, .ok ()) => return (s, .ok ())

end Mach
end Vmap
