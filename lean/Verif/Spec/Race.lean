import Verif.Model.MapJob
import Verif.Spec.Map
import Verif.Spec.Kernel
/-
`map_if` and `open_if` while other threads and other processes work on the same files, names and
address space.  C111–C113 are stated over the states such calls go through.
-/
namespace Vmap
namespace Spec

/-- What may happen between two system calls of a call that uses descriptor `fd`: files are written,
cut, extended, created and renamed; memory is mapped and unmapped; descriptors come and go — but
not `fd`.  Objects are never reused, and the page size is fixed. -/
structure Outside (t : Target) (fd : Option Nat) (k k' : Kernel) : Prop where
  wf : Kernel.Wf t k'
  page : k'.page = k.page
  fd : ∀ d, fd = some d → k'.fds d = k.fds d
  fresh : k.fresh ≤ k'.fresh

/-- `MapRun tab t o fd E k0 n h k j`: a call of `map_if` that began in state `k0` has made `n` system
calls and got to `j`, and the state is `k`; `h` lists the states before (the last one first), whoever
brought them about.  `E` restricts what others do. -/
inductive MapRun (tab : SysTable) (t : Target) (o : Options) (fd : Nat)
    (E : Kernel → Kernel → Prop) (k0 : Kernel) : Nat → List Kernel → Kernel → MapJob → Prop
  | start : MapRun tab t o fd E k0 0 [] k0 .stat
  | own {n h k j k' j'} (before : MapRun tab t o fd E k0 n h k j)
      (step : j.step tab t k o fd = .ok (k', j')) : MapRun tab t o fd E k0 (n + 1) (k :: h) k' j'
  | other {n h k j k'} (before : MapRun tab t o fd E k0 n h k j)
      (what : Outside t (some fd) k k') (cond : E k k') :
      MapRun tab t o fd E k0 n (k :: h) k' j

/-- The same for `open_if`. -/
inductive OpenRun (tab : SysTable) (t : Target) (o : Options) (path : String) (k0 : Kernel) :
    Nat → List Kernel → Kernel → OpenJob → Prop
  | start : OpenRun tab t o path k0 0 [] k0 .start
  | own {n h k j k' j'} (before : OpenRun tab t o path k0 n h k j)
      (step : j.step tab t k o path = .ok (k', j')) :
      OpenRun tab t o path k0 (n + 1) (k :: h) k' j'
  | other {n h k j k'} (before : OpenRun tab t o path k0 n h k j) (what : Outside t j.fd k k') :
      OpenRun tab t o path k0 n (k :: h) k' j

/-- Others do what they like. -/
def Free (_ _ : Kernel) : Prop := True

/-- Others leave the length of file `x` alone. -/
def KeepsLength (x : Obj) (k k' : Kernel) : Prop := k'.size x = k.size x

/-- Between `k` and `k'` pages `[p, p+n)` that were free were mapped; they show `len` bytes of object
`o` from byte `off` on, to the extent that the file has them.  No other page changed. -/
structure Mapped (t : Target) (k k' : Kernel) (ptr len : Nat) (o : Obj) (off : Nat)
    (shared mw : Bool) (prot : Prot) (p n : Nat) : Prop where
  pages : Pages t k.page ptr len p n
  free : ∀ q, p ≤ q → q < p + n → k.pt q = none
  shows' : ∀ i, i < len → ∃ e, k'.pt ((ptr + i) / k'.page) = some e ∧ e.obj = o ∧
    e.idx * k'.page + (ptr + i) % k'.page = off + i ∧ e.shared = shared ∧ e.mayWrite = mw ∧
    e.prot = prot ∧ e.copy = none
  others : ∀ q, ¬ (p ≤ q ∧ q < p + n) → k'.pt q = k.pt q

/-- Between `k` and `k'` the file `o` may have been cut or extended, to one of the lengths in `ls`;
nothing else happened. -/
structure Cut (k k' : Kernel) (o : Obj) (ls : List Nat) : Prop extends Kernel.OnlyFile k k' o where
  file : (k'.size o = k.size o ∧ k'.data o = k.data o) ∨
    ∃ n ∈ ls, Resized k k' o (k.size o) n

/-- The lengths to which the options may cut or extend a file. -/
def lengths (truncate : Bool) (resize : Extent) : List Nat :=
  (if truncate then [0] else []) ++
  match resize with
  | .endOf => []
  | .exact n => [n]
  | .min n => [n]
  | .max n => [n]

/-- What a system call of `open_if` may do to the rest of the world, `mine` and `mine'` being the
descriptor the call holds before and after: mapped pages, other descriptors and durable contents
stay; a name is added only if creation was asked for; a file that exists is only ever cut or
extended to a length the options name, and only the file being opened. -/
structure Harmless (o : Options) (path : String) (mine mine' : Option Nat) (k k' : Kernel) :
    Prop where
  pages : ∀ q e, k.pt q = some e → k'.pt q = some e
  fds : ∀ d, mine ≠ some d → mine' ≠ some d → k'.fds d = k.fds d
  disk : k'.disk = k.disk
  names : ∀ n, k'.names n = k.names n ∨ (n = path ∧ k.names n = none ∧
    o.openOptions.write = true ∧ (o.openOptions.create = true ∨ o.openOptions.createNew = true))
  files : ∀ x, x < k.fresh → (k'.size x = k.size x ∧ k'.data x = k.data x) ∨
    ((∃ n ∈ lengths o.truncate o.resize, Resized k k' x (k.size x) n) ∧
      (mine = none ∧ k.names path = some x ∧ o.openOptions.createNew = false ∨
        ∃ d f, mine = some d ∧ k.fds d = some f ∧ f.obj = x))

end Spec
end Vmap
