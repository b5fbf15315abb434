import Verif.Model.RingJob
import Verif.Model.Size
import Verif.Spec.World
/-
Programs with threads: ring creation is interrupted between any two of its system calls, by other
ring creations and by everything else a program can do (Spec/World.lean).  C109 and C110 are stated
over the states such programs can reach.
-/
namespace Vmap
open Kernel Spec

/-- A running `Ring::new` or `InfiniteRing::new`: the capacity it computed, whether the ring is an
`InfiniteRing`, and its next system call.  `slot` is the handle number under which the memory
it has reserved is booked (the number the ring will have). -/
structure Task where
  len : Nat
  inf : Bool
  job : RingJob
  slot : Nat

/-- The ring that a task returns. -/
def Task.ring (j : Task) (ptr : Nat) : Handle :=
  if j.inf then .inf { ptr, len := j.len, rlen := 0, wpos := 0 } 0
  else .ring { ptr, len := j.len, rpos := 0, wpos := 0 } 0

/-- A program with threads: the kernel and what the program holds (`w`), and the ring creations that
are under way, by thread.  Memory that a ring creation has reserved is booked in `w` as well, as
a handle on which no operation may work (`Move.Sane`). -/
structure Multi where
  w : World
  tasks : Nat → Option Task

/-- What can happen next. -/
inductive Move
  /-- a thread runs one of the other operations -/
  | op (op : Op)
  /-- thread `i` calls `Ring::new(hint)` (or `InfiniteRing::new`) and gets as far as the first
  system call -/
  | begin (i hint : Nat) (inf : Bool)
  /-- the ring creation of thread `i` makes its next system call -/
  | run (i : Nat)

namespace Multi

/-- One thread, holding nothing. -/
def start (k : Kernel) : Multi := ⟨World.start k, fun _ => none⟩

/-- Thread `i`'s ring creation is now `j`. -/
def set (s : Multi) (i : Nat) (w : World) (j : Option Task) : Multi :=
  ⟨w, fun x => if x = i then j else s.tasks x⟩

/-- Book the outcome of a system call of task `j`: `k` and `next` are the state after it. -/
def book (w : World) (j : Task) (k : Kernel) (next : RingJob) : World × Option Task :=
  match j.job, next with
  -- memory was reserved
  | .reserve .., .first len _ pg =>
    (w.put k (.map ⟨pg, 2 * len⟩), some { j with job := next, slot := w.next })
  -- it was given back
  | .undo .., _ => (w.upd k j.slot none, some { j with job := next })
  -- the ring is finished
  | .finish _ (.ok ptr), _ => (w.upd k j.slot (some (j.ring ptr)), none)
  -- the creation has failed
  | _, .done _ => (w.run k, none)
  | _, _ => (w.run k, some { j with job := next })

/-- One step of a program with threads. -/
def step (tab : SysTable) (t : Target) (s : Multi) : Move → Exec Multi
  | .op o => do
    let w ← s.w.step tab t o
    return { s with w := w }
  | .begin i hint inf =>
    match s.tasks i with
    | some _ => return s
    | none => do
      let len ← (Size.withSize (Unix.systemInfo s.w.k).2).round t hint
      return s.set i s.w (some ⟨len, inf, .memfd len, 0⟩)
  | .run i =>
    match s.tasks i with
    | none => return s
    | some j => do
      let (k, next) ← j.job.step t s.w.k
      let (w, j) := book s.w j k next
      return s.set i w j

end Multi

/-- The task's reserved memory is booked under its `slot`. -/
def Task.reserved (j : Task) : Bool :=
  match j.job with
  | .first .. => true
  | .second .. => true
  | .undo .. => true
  | .finish _ (.ok _) => true
  | _ => false

/-- The handle a move works on, if any. -/
def Move.target (s : Multi) : Move → Option Nat
  | .op o => o.target
  | .begin .. => none
  | .run i =>
    match s.tasks i with
    | none => none
    | some j => if j.reserved then some j.slot else none

/-- Arguments do not overflow; and nobody touches what a running `Ring::new` has not returned yet: its
memory and its descriptor are known to no other thread. -/
def Move.Sane (t : Target) (s : Multi) : Move → Prop
  | .op o => o.Sane t s.w ∧ ∀ i j, s.tasks i = some j →
      (j.reserved = true → o.target ≠ some j.slot) ∧ (o.fd ≠ none → o.fd ≠ j.job.fd)
  | .begin _ hint _ => hint + s.w.k.page < t.lim
  | .run _ => True

/-- The states that a program with threads can reach; `C` restricts the steps. -/
inductive ThreadReach (tab : SysTable) (t : Target) (k0 : Kernel) (C : Multi → Move → Prop) :
    Multi → Prop
  | start : ThreadReach tab t k0 C (Multi.start k0)
  | step {s s' : Multi} {m : Move} (before : ThreadReach tab t k0 C s) (sane : m.Sane t s)
      (cond : C s m) (step : s.step tab t m = .ok s') : ThreadReach tab t k0 C s'

/-- No restriction. -/
def Spec.Any (_ : Multi) (_ : Move) : Prop := True

/-- A `mmap` over memory that a ring creation has reserved, if it fails, leaves the address space as it
was.  (POSIX promises less: "if `mmap()` fails for reasons other than [EBADF], [EINVAL], or
[ENOTSUP], some of the mappings in the address range starting at addr and continuing for len bytes
may have been unmapped".) -/
def Spec.Clean (t : Target) (s : Multi) : Move → Prop
  | .run i => ∀ j k' len fd pg e, s.tasks i = some j →
      j.job.step t s.w.k = .ok (k', .undo len fd pg e) → k'.pt = s.w.k.pt
  | _ => True

end Vmap
