import Verif.Model.ShmJob
import Verif.Spec.Memfd
/-
Processes and threads that use the fallback `memfd_open` at the same time.  C149 is stated over the states
they go through.
-/
namespace Vmap

/-- The name a job has made and not yet removed, with the object. -/
def ShmJob.made : ShmJob → Option (List Byte × Obj)
  | .unlink path fd => some (path, fd)
  | _ => none

/-- The object a job has (and returns, or has returned). -/
def ShmJob.has : ShmJob → Option Obj
  | .unlink _ fd => some fd
  | .done (.ok fd) => some fd
  | _ => none

namespace Spec

/-- What other programs may do to the name space: make names for new objects and remove names — but not the
names that jobs have made.  `busy` says which those are. -/
structure Strangers (busy : List Byte → Prop) (s s' : ShmSpace) : Prop where
  fresh : s.fresh ≤ s'.fresh
  leave : ∀ n, busy n → s'.names n = s.names n
  new : ∀ n o, s'.names n = some o → s.names n = some o ∨ s.fresh ≤ o ∧ o < s'.fresh

/-- The name `n` has been made by one of the jobs and not been removed yet. -/
def ShmBusy (ts : Nat → Option ShmJob) (n : List Byte) : Prop :=
  ∃ i j fd, ts i = some j ∧ j.made = some (n, fd)

/-- Any number of processes and threads (numbered) call `memfd_open`, once each, beginning whenever
they like; every call goes on whenever it likes, with any clock and any failures.  `ts` has the state of
each call.  If `strangers` holds, other programs use the name space as well. -/
inductive ShmTeam (strangers : Prop) (s0 : ShmSpace) : ShmSpace → (Nat → Option ShmJob) → Prop
  | start : ShmTeam strangers s0 s0 (fun _ => none)
  | begin {s ts i} (before : ShmTeam strangers s0 s ts) (idle : ts i = none) :
      ShmTeam strangers s0 s (fun x => if x = i then some (.open pathBytes) else ts x)
  | step {s ts i j s' j' now fail} (before : ShmTeam strangers s0 s ts) (busy : ts i = some j)
      (step : j.step now fail s = .ok (s', j')) :
      ShmTeam strangers s0 s' (fun x => if x = i then some j' else ts x)
  | other {s ts s'} (before : ShmTeam strangers s0 s ts) (allowed : strangers)
      (what : Strangers (ShmBusy ts) s s') : ShmTeam strangers s0 s' ts

/-- Names stand for objects that exist. -/
def ShmWf (s : ShmSpace) : Prop := ∀ n o, s.names n = some o → o < s.fresh

end Spec
end Vmap
