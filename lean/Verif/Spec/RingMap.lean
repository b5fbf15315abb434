import Verif.Model.Error
/-
Specification vocabulary for C28: what an error of ring creation should be, given which
system call failed.
-/
namespace Vmap.Spec

/-- `RingTrace len l err`: `l` (latest first) is the list of system calls of a failing
attempt to create a ring of `len` bytes, and `err` is the error it has to report: the
operation names the step that failed and the OS code is that call's errno.  After the
failing call only clean-up calls follow. -/
inductive RingTrace (len : Nat) : List Event → Error → Prop
  /-- no descriptor -/
  | memfd (e) :
    RingTrace len [⟨.memfd, .error e⟩] ⟨.system (.os e), .memoryFd⟩
  /-- descriptor could not be sized; it is closed again -/
  | sizing (fd e) :
    RingTrace len [⟨.close fd, .ok 0⟩, ⟨.ftruncate fd len, .error e⟩, ⟨.memfd, .ok fd⟩]
      ⟨.system (.os e), .memoryFd⟩
  /-- no address range of twice the length -/
  | reserve (fd prot flags src off e) :
    RingTrace len
      [⟨.close fd, .ok 0⟩, ⟨.mmap 0 (2 * len) prot flags src off, .error e⟩,
       ⟨.ftruncate fd len, .ok 0⟩, ⟨.memfd, .ok fd⟩]
      ⟨.system (.os e), .ringAllocate⟩
  /-- first half could not be mapped; the range is released -/
  | primary (fd a prot flags src off prot' flags' off' e) :
    RingTrace len
      [⟨.close fd, .ok 0⟩, ⟨.munmap a (2 * len), .ok 0⟩,
       ⟨.mmap a len prot' flags' (some fd) off', .error e⟩,
       ⟨.mmap 0 (2 * len) prot flags src off, .ok a⟩,
       ⟨.ftruncate fd len, .ok 0⟩, ⟨.memfd, .ok fd⟩]
      ⟨.system (.os e), .ringPrimary⟩
  /-- second half could not be mapped; the range is released -/
  | secondary (fd a prot flags src off prot' flags' off' prot'' flags'' off'' e) :
    RingTrace len
      [⟨.close fd, .ok 0⟩, ⟨.munmap a (2 * len), .ok 0⟩,
       ⟨.mmap (a + len) len prot'' flags'' (some fd) off'', .error e⟩,
       ⟨.mmap a len prot' flags' (some fd) off', .ok a⟩,
       ⟨.mmap 0 (2 * len) prot flags src off, .ok a⟩,
       ⟨.ftruncate fd len, .ok 0⟩, ⟨.memfd, .ok fd⟩]
      ⟨.system (.os e), .ringSecondary⟩

/-- The same on macOS and iOS: `l` (latest first) is the list of system calls of a failing attempt to
create a ring of `len` bytes, and `err` the error it has to report.  (`port` is never given back: C30.) -/
inductive DarwinTrace (len : Nat) : List Event → Error → Prop
  | reserve (e : Nat) : DarwinTrace len [⟨.vmAllocate (2 * len), .error e⟩]
      ⟨.system (.kernel e), .ringAllocate⟩
  | primary (p e : Nat) : DarwinTrace len [⟨.vmDeallocate p (2 * len), .ok 0⟩,
      ⟨.vmAllocateAt p len, .error e⟩, ⟨.vmAllocate (2 * len), .ok p⟩]
      ⟨.system (.kernel e), .ringPrimary⟩
  | entry (p e : Nat) : DarwinTrace len [⟨.vmDeallocate p (2 * len), .ok 0⟩,
      ⟨.memoryEntry p len, .error e⟩, ⟨.vmAllocateAt p len, .ok 0⟩, ⟨.vmAllocate (2 * len), .ok p⟩]
      ⟨.system (.kernel e), .ringEntry⟩
  | secondary (p e port : Nat) : DarwinTrace len [⟨.vmDeallocate p (2 * len), .ok 0⟩,
      ⟨.vmMap (p + len) len port, .error e⟩, ⟨.memoryEntry p len, .ok port⟩,
      ⟨.vmAllocateAt p len, .ok 0⟩, ⟨.vmAllocate (2 * len), .ok p⟩]
      ⟨.system (.kernel e), .ringSecondary⟩

/-- The capacity asked of a ring can be rounded up; on macOS and iOS twice that capacity fits the
address space (otherwise: C140). -/
def RingFits (t : Target) (k : Kernel) (hint : Nat) : Prop :=
  hint + k.page < t.lim ∧ (k.mach = true → 2 * (hint + k.page) ≤ t.lim)

/-- A capacity that `Ring::new` may be asked for: any number, except on macOS and iOS, where it has to
fit (C140). -/
def RingHint (t : Target) (k : Kernel) (hint : Nat) : Prop :=
  hint < t.lim ∧ (k.mach = true → RingFits t k hint)

end Vmap.Spec
