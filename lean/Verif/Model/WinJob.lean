import Verif.Model.Windows
/-
src/os/windows.rs:131-178 once more: `map_ring` cut into its system calls, so that other threads can
act in between.  `C125_alone` (Props/WinJob.lean) ties this to `Win.mapRing`.
-/
namespace Vmap

/-- Where a thread is inside `map_ring`: the system call it makes next.  `h` is the handle of the
section, `left` is `5 - n` for the loop variable `n`.  src/os/windows.rs:131-178. -/
inductive WinRingJob
  /-- `CreateFileMappingW` — src/os/windows.rs:167 -/
  | create (len : Nat)
  /-- `VirtualAlloc` — src/os/windows.rs:132 -/
  | reserve (len full h left : Nat)
  /-- `VirtualFree` — src/os/windows.rs:136 -/
  | release (len full h left pg : Nat)
  /-- `MapViewOfFileEx` for the first half — src/os/windows.rs:143 -/
  | first (len full h left pg : Nat)
  /-- `MapViewOfFileEx` for the second half — src/os/windows.rs:147 -/
  | second (len full h left pg a : Nat)
  /-- `UnmapViewOfFile` of the first half after a failure — src/os/windows.rs:152 -/
  | undo (len full h left a : Nat) (err : Error)
  /-- `CloseHandle` — src/os/windows.rs:83-89 -/
  | finish (h : Nat) (ret : Result Nat)
  /-- returned -/
  | done (ret : Result Nat)

namespace WinRingJob

/-- After a failed attempt: once more, or give up — src/os/windows.rs:169-177. -/
def again (len full h left : Nat) (err : Error) : WinRingJob :=
  match left with
  | 0 => .finish h (.error err)
  | left + 1 => .reserve len full h left

/-- The next system call and what the code does with its result, up to the call after it.
src/os/windows.rs:131-178. -/
def step (t : Target) (s : Win) : WinRingJob → Exec (Win × WinRingJob)
  | .create len => do
    let full ← mulU t 2 len
    match ← s.handleNew t .ringAllocate none .readwrite full with
    | (s, .error e) => return (s, .done (.error e))
    | (s, .ok h) => return (s, .reserve len full h 5)
  | .reserve len full h left =>
    match s.virtualAlloc t full with
    | (s, .error e) => return (s, .finish h (.error (Error.lastOsError .ringAllocate e)))
    | (s, .ok pg) => return (s, .release len full h left pg)
  | .release len full h left pg => return (s.virtualFree pg, .first len full h left pg)
  | .first len full h left pg => do
    match ← s.view t h .ringPrimary { read := true, write := true } 0 len pg with
    | (s, .error e) => return (s, again len full h left e)
    | (s, .ok a) => return (s, .second len full h left pg a)
  | .second len full h left pg a => do
    match ← s.view t h .ringSecondary { read := true, write := true } 0 len (ptrAdd t pg len) with
    | (s, .error e) => return (s, .undo len full h left a e)
    | (s, .ok _) => return (s, .finish h (.ok a))
  | .undo len full h left a err => return ((s.unmapViewOfFile a).1, again len full h left err)
  | .finish h ret => return (s.dropHandle h, .done ret)
  | .done ret => return (s, .done ret)

/-- `n` calls in a row, with nothing in between.  src/os/windows.rs:131-178. -/
def run (t : Target) (s : Win) (j : WinRingJob) : Nat → Exec (Win × WinRingJob)
  | 0 => .ok (s, j)
  | n + 1 => do
    let (s, j) ← j.step t s
    run t s j n

end WinRingJob
end Vmap
