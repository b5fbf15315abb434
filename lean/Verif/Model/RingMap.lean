import Verif.Model.Unix
/-
src/os/unix/posix/mod.rs — circular mappings on POSIX systems (Linux variant of
`memfd_open`).
-/
namespace Vmap
namespace Posix

/-- `memfd_open` (linux/android) — src/os/unix/posix/memfd.rs:6-21.  The FreeBSD variant, lines 23-31,
calls `shm_open(SHM_ANON)` instead, which is the same: a new nameless object, or an error. -/
def memfdOpen (k : Kernel) : Kernel × Result Nat :=
  wrapErr .memoryFd k.memfdCreate

/-- `tmp_open` — src/os/unix/posix/mod.rs:91-102.  `size as off_t` is the same bits;
`ftruncate` judges them as a signed number. -/
def tmpOpen (t : Target) (k : Kernel) (size : Nat) : Kernel × Result Nat :=
  match memfdOpen k with
  | (k, .error e) => (k, .error e)
  | (k, .ok fd) =>
    match k.ftruncate t fd size with
    | (k, .error errno) =>
      let err := Error.lastOsError .memoryFd errno
      (k.close fd, .error err)
    | (k, .ok ()) => (k, .ok fd)

/-- `map` — src/os/unix/posix/mod.rs:65-74. -/
def map (t : Target) (k : Kernel) (op : Operation) (pg len : Nat) (flags : MapFlags)
    (fd : Option Nat) : Kernel × Result Nat :=
  wrapErr op (k.mmap t pg len Unix.protRW flags fd 0)

/-- `unmap_ring` — src/os/unix/posix/mod.rs:87-89. -/
def unmapRing (t : Target) (k : Kernel) (pg len : Nat) : Exec (Kernel × Result Unit) := do
  let n ← mulU t 2 len
  return Unix.unmap k pg n

/-- `wrap_ptr` — src/os/unix/posix/mod.rs:51-63. -/
def wrapPtr (t : Target) (k : Kernel) (pg len fd : Nat) : Kernel × Result Nat :=
  match map t k .ringPrimary pg len { shared := true, fixed := true } (some fd) with
  | (k, .error e) => (k, .error e)
  | (k, .ok _) =>
    match map t k .ringSecondary (pg + len) len { shared := true, fixed := true } (some fd) with
    | (k, .error e) => (k, .error e)
    | (k, .ok _) => (k, .ok pg)

/-- `wrap_fd` — src/os/unix/posix/mod.rs:32-49. -/
def wrapFd (t : Target) (k : Kernel) (len fd : Nat) : Exec (Kernel × Result Nat) := do
  let n ← mulU t len 2
  match map t k .ringAllocate 0 n { priv := true, anon := true } none with
  | (k, .error e) => return (k, .error e)
  | (k, .ok pg) =>
    match wrapPtr t k pg len fd with
    | (k, .error err) => do
      let (k, _) ← unmapRing t k pg len
      return (k, .error err)
    | (k, .ok pg) => return (k, .ok pg)

/-- `map_ring` — src/os/unix/posix/mod.rs:22-30. -/
def mapRing (t : Target) (k : Kernel) (len : Nat) : Exec (Kernel × Result Nat) :=
  match tmpOpen t k len with
  | (k, .error e) => return (k, .error e)
  | (k, .ok fd) => do
    let (k, ret) ← wrapFd t k len fd
    return (k.close fd, ret)

end Posix
end Vmap
