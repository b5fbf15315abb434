import Verif.Model.Error
import Verif.Model.Size
/-
src/os/unix/mod.rs — the unix operating-system layer for maps.
-/
namespace Vmap

/-- `enum Protect` — src/lib.rs:168-177. -/
inductive Protect
  | readOnly | readWrite | readCopy | readExec
  deriving DecidableEq, Repr

/-- `enum Flush` — src/lib.rs:181-186. -/
inductive FlushMode
  | async | sync
  deriving DecidableEq, Repr

/-- `enum Advise` — src/lib.rs:190-207. -/
inductive Advise
  | normal | sequential | random | willNeed | willNotNeed
  deriving DecidableEq, Repr

/-- A system call's result with its errno wrapped by `Error::last_os_error(op)`
(the `if .. < 0 { Err(Error::last_os_error(op)) }` pattern of src/os/unix/mod.rs). -/
def wrapErr {α : Type} (op : Operation) (r : Sys α) : Kernel × Result α :=
  match r with
  | (k, .ok a) => (k, .ok a)
  | (k, .error e) => (k, .error (Error.lastOsError op e))

namespace Unix

/-- `PROT_READ` — src/os/unix/mod.rs:48,111. -/
def protR : Prot := ⟨true, false, false⟩
/-- `PROT_READ | PROT_WRITE` — src/os/unix/mod.rs:49,112. -/
def protRW : Prot := ⟨true, true, false⟩
/-- `PROT_READ | PROT_EXEC` — src/os/unix/mod.rs:51,114. -/
def protRX : Prot := ⟨true, false, true⟩

/-- `system_info` — src/os/unix/mod.rs:32-35: page size and allocation granularity are the
same number.  (The `as u32` is lossless for page sizes below 4 GiB.) -/
def systemInfo (k : Kernel) : Nat × Nat := (k.page, k.page)

/-- The protection and flags of `map_file` — src/os/unix/mod.rs:47-52. -/
def mapFileBits : Protect → Prot × MapFlags
  | .readOnly => (protR, { shared := true })
  | .readWrite => (protRW, { shared := true })
  | .readCopy => (protRW, { priv := true })
  | .readExec => (protRX, { priv := true })

/-- `map_file` — src/os/unix/mod.rs:46-66. -/
def mapFile (t : Target) (k : Kernel) (fd off len : Nat) (prot : Protect) :
    Kernel × Result Nat :=
  let b := mapFileBits prot
  wrapErr .mapFile (k.mmap t 0 len b.1 b.2 (some fd) off)

/-- The protection and flags of `map_anon` — src/os/unix/mod.rs:70-75 (note: no `MAP_ANON`
for `ReadOnly`). -/
def mapAnonBits : Protect → Prot × MapFlags
  | .readOnly => (protR, { shared := true })
  | .readWrite => (protRW, { anon := true, shared := true })
  | .readCopy => (protRW, { anon := true, priv := true })
  | .readExec => (protRX, { anon := true, priv := true })

/-- `map_anon` — src/os/unix/mod.rs:69-77. -/
def mapAnon (t : Target) (k : Kernel) (len : Nat) (prot : Protect) : Kernel × Result Nat :=
  let b := mapAnonBits prot
  wrapErr .mapAnonymous (k.mmap t 0 len b.1 b.2 none 0)

/-- `unmap` — src/os/unix/mod.rs:90-96. -/
def unmap (k : Kernel) (pg len : Nat) : Kernel × Result Unit :=
  wrapErr .unmap (k.munmap pg len)

/-- The bits of `protect` — src/os/unix/mod.rs:110-115. -/
def protectBits : Protect → Prot
  | .readOnly => protR
  | .readWrite => protRW
  | .readCopy => protRW
  | .readExec => protRX

/-- `protect` — src/os/unix/mod.rs:109-121. -/
def protect (k : Kernel) (pg len : Nat) (prot : Protect) : Kernel × Result Unit :=
  wrapErr .protect (k.mprotect pg len (protectBits prot))

/-- `flush` — src/os/unix/mod.rs:134-144. -/
def flush (k : Kernel) (pg len : Nat) (mode : FlushMode) : Kernel × Result Unit :=
  let sync := match mode with
    | .sync => true
    | .async => false
  wrapErr .flush (k.msync pg len sync)

/-- The hint numbers of `advise` — src/os/unix/mod.rs:158-164. -/
def adviseBits : Advise → Madv
  | .normal => .normal
  | .sequential => .sequential
  | .random => .random
  | .willNeed => .willneed
  | .willNotNeed => .dontneed

/-- `advise` — src/os/unix/mod.rs:157-171. -/
def advise (k : Kernel) (pg len : Nat) (adv : Advise) : Kernel × Result Unit :=
  wrapErr .advise (k.madvise pg len (adviseBits adv))

/-- `lock` — src/os/unix/mod.rs:184-190. -/
def lock (k : Kernel) (pg len : Nat) : Kernel × Result Unit :=
  wrapErr .lock (k.mlock pg len true)

/-- `unlock` — src/os/unix/mod.rs:203-209. -/
def unlock (k : Kernel) (pg len : Nat) : Kernel × Result Unit :=
  wrapErr .unlock (k.mlock pg len false)

end Unix
end Vmap
