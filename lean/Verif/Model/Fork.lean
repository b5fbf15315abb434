import Verif.Model.File
/-
Two processes: what `fork` makes of the memory, and what the two can do afterwards.

ENVIRONMENT MODEL (trusted base): nothing here is code of /repo; it writes down the documented
behaviour of `fork` for the mappings that src/os/unix/mod.rs:46-77 makes.  The documentation of
`Options::copy` (src/map.rs:560-567) is about it.
-/
namespace Vmap

/-- Anything a process can do to memory, files and descriptors, one system call or memory access at a
time, whether or not it is a call this crate makes.  Environment of src/map.rs:560-567. -/
inductive Act
  | store (a : Nat) (b : Byte)
  | mmap (addr len : Nat) (prot : Prot) (flags : MapFlags) (fd : Option Nat) (off : Nat)
  | munmap (addr len : Nat)
  | mprotect (addr len : Nat) (prot : Prot)
  | msync (addr len : Nat) (sync : Bool)
  | madvise (addr len : Nat) (adv : Madv)
  | mlock (addr len : Nat) (on : Bool)
  | memfd
  | ftruncate (fd len : Nat)
  | fstat (fd : Nat)
  | close (fd : Nat)
  | open (path : String) (write creat excl trunc : Bool)
  | pwrite (fd i : Nat) (b : Byte)
  deriving DecidableEq

/-- The state after an action.  (A store that faults ends the process; here it changes nothing.  The
result of a call is left out.)  Environment of src/map.rs:560-567. -/
def Act.run (t : Target) (k : Kernel) : Act → Kernel
  | .store a b =>
    match k.store a b with
    | .ok k' => k'
    | .error _ => k
  | .mmap addr len prot flags fd off => (k.mmap t addr len prot flags fd off).1
  | .munmap addr len => (k.munmap addr len).1
  | .mprotect addr len prot => (k.mprotect addr len prot).1
  | .msync addr len sync => (k.msync addr len sync).1
  | .madvise addr len adv => (k.madvise addr len adv).1
  | .mlock addr len on => (k.mlock addr len on).1
  | .memfd => k.memfdCreate.1
  | .ftruncate fd len => (k.ftruncate t fd len).1
  | .fstat fd => (k.fstatLen fd).1
  | .close fd => k.close fd
  | .open path write creat excl trunc => (k.openFile path write creat excl trunc).1
  | .pwrite fd i b =>
    match k.fds fd with
    | some f => k.setByte f.obj i b
    | none => k

/-- Parent and child.  Environment of src/map.rs:560-567. -/
inductive Who
  | parent
  | child
  deriving DecidableEq

/-- The one that is not `p`.  Environment of src/map.rs:560-567. -/
def Who.other : Who → Who
  | .parent => .child
  | .child => .parent

/-- Two processes: files and memory objects are common; each has a page table and descriptors of its own.
`k` is the state as the parent sees it; `pt`, `fds` and `nextFd` are the child's.
Environment of src/map.rs:560-567. -/
structure Family where
  k : Kernel
  pt : Nat → Option Pte
  fds : Nat → Option Fd
  nextFd : Nat

namespace Family

/-- The state as one of the two sees it.  Environment of src/map.rs:560-567. -/
def view (f : Family) : Who → Kernel
  | .parent => f.k
  | .child => { f.k with pt := f.pt, fds := f.fds, nextFd := f.nextFd }

/-- One of the two does something.  Environment of src/map.rs:560-567. -/
def act (t : Target) (f : Family) (p : Who) (a : Act) : Family :=
  let k' := a.run t (f.view p)
  match p with
  | .parent => { f with k := k' }
  | .child =>
    { k := { k' with pt := f.k.pt, fds := f.k.fds, nextFd := f.k.nextFd }
      pt := k'.pt
      fds := k'.fds
      nextFd := k'.nextFd }

/-- One of the two has run code that left the state (as that process sees it) `k'`.
Environment of src/map.rs:560-567. -/
def put (f : Family) (p : Who) (k' : Kernel) : Family :=
  match p with
  | .parent => { f with k := k' }
  | .child =>
    { k := { k' with pt := f.k.pt, fds := f.k.fds, nextFd := f.k.nextFd }
      pt := k'.pt
      fds := k'.fds
      nextFd := k'.nextFd }

/-- `fork`: the child gets the same mappings and the same descriptors.  Shared pages and pages nobody
has stored to show what they showed; a private page that the parent has a copy of becomes, in the
child, a copy of that copy (fork(2): "the child … memory space … with copy-on-write": here the copy
is made at once; object `k.fresh + q` is the copy of page `q`, all of which lie below `t.lim`).
Memory locks are not inherited (mlock(2)).  Environment of src/map.rs:560-567. -/
def fork (t : Target) (k : Kernel) : Family where
  k :=
    { k with
      data := fun o i =>
        if k.fresh ≤ o then
          match k.pt (o - k.fresh) with
          | some e =>
            match e.copy with
            | some c => k.data c i
            | none => k.data o i
          | none => k.data o i
        else k.data o i
      fresh := k.fresh + t.lim }
  pt := fun q =>
    (k.pt q).map (fun e => { e with copy := e.copy.map (fun _ => k.fresh + q), locked := false })
  fds := k.fds
  nextFd := k.nextFd

end Family
end Vmap
