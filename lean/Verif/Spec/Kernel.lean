import Verif.Model.Kernel
/-
What it means for a kernel state to be consistent.  Used as the hypothesis "the program
runs on a sane operating system" of the property theorems; every theorem that produces a
new kernel state is accompanied by one saying the new state is consistent again.
-/
namespace Vmap

/-- Consistency of a kernel state on a target. -/
structure Kernel.Wf (t : Target) (k : Kernel) : Prop where
  /-- the page size is a power of two, at most a quarter of the address space -/
  page : ∃ s, k.page = 2 ^ s ∧ s + 2 ≤ t.width.bits
  /-- mapped pages lie inside the address space; page zero and the last page are never mapped -/
  addr : ∀ p e, k.pt p = some e → 0 < p ∧ (p + 1) * k.page < t.lim
  /-- only allocated objects are mapped -/
  objs : ∀ p e, k.pt p = some e → e.obj < k.fresh ∧ ∀ c, e.copy = some c → c < k.fresh
  /-- open descriptors refer to allocated objects and have been handed out before -/
  fds : ∀ d f, k.fds d = some f → f.obj < k.fresh ∧ d < k.nextFd
  /-- file names refer to allocated objects -/
  names : ∀ n o, k.names n = some o → o < k.fresh
  /-- a private copy belongs to one page only, and is not reachable in any other way -/
  excl : ∀ p e c, k.pt p = some e → e.copy = some c →
    (∀ q e', k.pt q = some e' → e'.obj ≠ c ∧ (e'.copy = some c → q = p)) ∧
    (∀ d f, k.fds d = some f → f.obj ≠ c) ∧ (∀ n o, k.names n = some o → o ≠ c)
  /-- shared pages have no private copy -/
  shared : ∀ p e, k.pt p = some e → e.shared = true → e.copy = none

/-- Address `a` shows byte `j` of object `o`, shared, readable and writable. -/
def Kernel.Shows (k : Kernel) (a : Nat) (o : Obj) (j : Nat) : Prop :=
  ∃ e, k.pt (a / k.page) = some e ∧ e.prot.r = true ∧ e.prot.w = true ∧ e.shared = true ∧
    e.copy = none ∧ e.obj = o ∧ e.idx * k.page + a % k.page = j ∧ k.backed e = true

/-- Nothing that existed in `k` is different in `k'`, mappings and descriptors apart: old
objects keep their contents, length and durable contents; file names are the same.  (New
objects may have appeared.) -/
structure Kernel.KeepsObjects (k k' : Kernel) : Prop where
  page : k'.page = k.page
  data : ∀ o, o < k.fresh → k'.data o = k.data o
  size : ∀ o, o < k.fresh → k'.size o = k.size o
  disk : ∀ o, o < k.fresh → k'.disk o = k.disk o
  names : k'.names = k.names
  fresh : k.fresh ≤ k'.fresh
  nextFd : k.nextFd ≤ k'.nextFd
  oracle : k'.oracle = k.oracle

/-- Nothing that existed in `k` is different in `k'`, mappings and descriptors included. -/
structure Kernel.SameWorld (k k' : Kernel) : Prop extends Kernel.KeepsObjects k k' where
  pt : k'.pt = k.pt
  fds : k'.fds = k.fds

/-- `[ptr, ptr+2*len)` is a circular mapping of the object `o`: address `ptr + i` shows byte
`i mod len`, shared, readable and writable; whole pages, inside the address space. -/
structure Kernel.Mirror (t : Target) (k : Kernel) (ptr len : Nat) (o : Obj) : Prop where
  len_pos : 0 < len
  ptr_dvd : k.page ∣ ptr
  len_dvd : k.page ∣ len
  fits : ptr + 2 * len ≤ t.lim
  shows' : ∀ i, i < 2 * len → k.Shows (ptr + i) o (i % len)

end Vmap
