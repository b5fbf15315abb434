import Verif.Model.Mach
/-
src/os/unix/mach.rs:79-131 once more, on a kernel whose memory entries may cover less than was asked:
the `size` argument of `mach_make_memory_entry` is in and out, and what comes back is the size of the
entry that was made.  (XNU keeps large allocations as several objects, and an entry made in this way
stands for one object.)  Model/Mach.lean is the case in which the entry covers everything; see `C150_whole`
(Props/MachShort.lean).
-/
namespace Vmap
namespace Mach

/-- `mach_make_memory_entry(task, &mut size, addr, VM_PROT_DEFAULT, &mut port, 0)` — called at
src/os/unix/mach.rs:99 — where the kernel makes an entry for at most `cover + 1` pages: the size comes
back as that of the entry. -/
def makeMemoryEntryUpTo (cover : Nat) (s : Mach) (size addr : Nat) : Mach × Except Nat (Nat × Nat) :=
  let c := s.oracle s.tick
  match s.pt (addr / s.page) with
  | some e =>
    if c.ok = true ∧ size ≠ 0 then
      ({ s.tock with
          ports := fun q => if q = s.nextPort then some e else s.ports q
          nextPort := s.nextPort + 1 },
        .ok (min (s.pages size) (cover + 1) * s.page, s.nextPort))
    else (s.tock, .error (failCode c))
  | none => (s.tock, .error (failCode c))

/-- `map_ring` — src/os/unix/mach.rs:79-131 — on such a kernel.  From line 99 on, `len` is the size that
came back. -/
def mapRingUpTo (cover : Nat) (t : Target) (s : Mach) (len : Nat) : Exec (Mach × Result Nat) := do
  let full ← mulU t 2 len
  match s.vmAllocateAnywhere t full with
  | (s, .error code) => return (s, .error (Error.kernel .ringAllocate code))
  | (s, .ok addr) =>
    match s.vmAllocateFixed t addr len with
    | (s, .error code) => return ((s.vmDeallocate t addr full).1, .error (Error.kernel .ringPrimary code))
    | (s, .ok ()) =>
      match s.makeMemoryEntryUpTo cover len addr with
      | (s, .error code) => return ((s.vmDeallocate t addr full).1, .error (Error.kernel .ringEntry code))
      | (s, .ok (len, port)) =>
        let half ← addU t addr len
        match s.vmMap t half len port with
        | (s, .error code) => do
          let full ← mulU t 2 len
          return ((s.vmDeallocate t addr full).1, .error (Error.kernel .ringSecondary code))
        | (s, .ok ()) => return (s, .ok addr)

end Mach
end Vmap
