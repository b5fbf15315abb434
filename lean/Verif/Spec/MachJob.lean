import Verif.Model.MachJob
import Verif.Spec.RingAt
/-
`map_ring` on macOS while other threads use the same address space.  C148 is stated over the states such
calls go through.
-/
namespace Vmap

/-- The pages (first one and number; pages have `u` bytes) that the creation of a ring of `len` bytes has
and has told nobody about. -/
def MachJob.room (u len : Nat) : MachJob → Nat × Nat
  | .overwrite _ addr => (addr / u, 2 * len / u)
  | .entry _ addr => (addr / u, 2 * len / u)
  | .second _ addr _ => (addr / u, 2 * len / u)
  | .undo addr _ _ => (addr / u, 2 * len / u)
  | .done (.ok addr) => (addr / u, 2 * len / u)
  | _ => (0, 0)

/-- The port right it is about to use. -/
def MachJob.port : MachJob → Option Nat
  | .second _ _ port => some port
  | _ => none

namespace Spec

/-- Page `q` is one of the `r.2` pages from `r.1` on. -/
def InRoom (r : Nat × Nat) (q : Nat) : Prop := r.1 ≤ q ∧ q < r.1 + r.2

/-- Object `o` is known to nothing in `k` but pages of `r`: no other page shows it or has it as its copy, no
descriptor and no name leads to it. -/
structure Secret (k : Kernel) (r : Nat × Nat) (o : Obj) : Prop where
  pages : ∀ q e, k.pt q = some e → (e.obj = o ∨ e.copy = some o) → InRoom r q
  fds : ∀ d f, k.fds d = some f → f.obj ≠ o
  names : ∀ n x, k.names n = some x → x ≠ o

/-- What may happen between two kernel calls of a creation that has the pages `r`: memory is mapped,
unmapped and written, files and descriptors come and go — but the pages of `r` stay, the
memory they show is neither written nor resized, and nobody else gets to know it; the rights
to ports stay; objects are never reused. -/
structure MachAround (t : Target) (r : Nat × Nat) (k k' : Kernel) : Prop where
  wf : Kernel.Wf t k'
  page : k'.page = k.page
  fresh : k.fresh ≤ k'.fresh
  ports : k.ports <+: k'.ports
  pages : ∀ q, InRoom r q → k'.pt q = k.pt q
  memory : ∀ q e, InRoom r q → k.pt q = some e →
    k'.data e.obj = k.data e.obj ∧ k'.size e.obj = k.size e.obj ∧ (Secret k r e.obj → Secret k' r e.obj)

/-- The creation of a ring of `len` bytes that began in state `k0` has made `n` kernel calls and got to `j`,
and the state is `k`. -/
inductive MachRun (t : Target) (len : Nat) (k0 : Kernel) : Nat → Kernel → MachJob → Prop
  | start : MachRun t len k0 0 k0 (.allocate len)
  | own {n k j k' j'} (before : MachRun t len k0 n k j) (step : j.step t k = .ok (k', j')) :
      MachRun t len k0 (n + 1) k' j'
  | other {n k j k'} (before : MachRun t len k0 n k j) (what : MachAround t (j.room k0.page len) k k') :
      MachRun t len k0 n k' j

/-- What one kernel call of a creation does, `r` and `r'` being the pages it has before and after: other
pages, descriptors, names, and all memory and files there were stay as they are; at most one port
right is added.  The pages it gets were free, those it no longer has are free.  What its pages
show is new, or was shown by its pages before. -/
structure MachActs (r r' : Nat × Nat) (k k' : Kernel) : Prop where
  page : k'.page = k.page
  fresh : k.fresh ≤ k'.fresh
  fds : k'.fds = k.fds
  names : k'.names = k.names
  disk : k'.disk = k.disk
  memory : ∀ o, o < k.fresh → k'.data o = k.data o ∧ k'.size o = k.size o
  ports : k'.ports = k.ports ∨ ∃ e, k'.ports = k.ports ++ [e]
  pages : ∀ q, ¬ InRoom r q → ¬ InRoom r' q → k'.pt q = k.pt q
  got : ∀ q, InRoom r' q → InRoom r q ∨ k.pt q = none
  gone : ∀ q, InRoom r q → InRoom r' q ∨ k'.pt q = none
  shown : ∀ q e, k'.pt q = some e → k.pt q = some e ∨
    InRoom r' q ∧ e.copy = none ∧ (k.fresh ≤ e.obj ∨ ∃ q0 e0, InRoom r q0 ∧ k.pt q0 = some e0 ∧ e0.obj = e.obj)

/-- A program whose threads make rings: whenever a thread likes it begins one or makes its next kernel call;
once a creation has returned, the ring is the program's.  What else the program does leaves alone
what the creations have.  `ts` has the length and the state of each thread's creation. -/
inductive MachTeam (t : Target) (k0 : Kernel) : Kernel → (Nat → Option (Nat × MachJob)) → Prop
  | start : MachTeam t k0 k0 (fun _ => none)
  | begin {k ts i len} (before : MachTeam t k0 k ts) (idle : ts i = none) (pages : k0.page ∣ len)
      (fits : 2 * len < t.lim) : MachTeam t k0 k (fun x => if x = i then some (len, .allocate len) else ts x)
  | step {k ts i len j k' j'} (before : MachTeam t k0 k ts) (busy : ts i = some (len, j))
      (step : j.step t k = .ok (k', j')) : MachTeam t k0 k' (fun x => if x = i then some (len, j') else ts x)
  | stop {k ts i len ret} (before : MachTeam t k0 k ts) (busy : ts i = some (len, .done ret)) :
      MachTeam t k0 k (fun x => if x = i then none else ts x)
  | other {k ts k'} (before : MachTeam t k0 k ts) (sane : MachAround t (0, 0) k k')
      (what : ∀ i len j, ts i = some (len, j) → MachAround t (j.room k0.page len) k k') :
      MachTeam t k0 k' ts

end Spec
end Vmap
