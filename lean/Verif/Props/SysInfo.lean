import Verif.Spec.Demo
import Verif.Model.Map
import Verif.Proofs.SysInfo
/-
Property theorems C06: the cached system sizes.
-/
namespace Vmap
open Spec Threads

/-! ### C06 -/

/-- C06: any number of threads, each making any calls of `page_size()` and `allocation_size()`, under
any schedule and whatever the loads see: the results a thread has got so far are the right answers
to the first of its calls, and once it has been given four steps per call it has them all. -/
theorem C06_sizes (page alloc : Nat) (progs : Nat → List Query) (sched : List (Nat × Nat)) (i : Nat) :
    (∃ n, ((run (page, alloc) (start progs) sched).threads i).out = ((progs i).take n).map (answer page alloc)) ∧
    (4 * (progs i).length ≤ stepsOf i sched →
      ((run (page, alloc) (start progs) sched).threads i).out = (progs i).map (answer page alloc)) := by
  have w : SysInv (page, alloc) progs (start progs) :=
    ⟨fun v h => .inl (List.mem_singleton.mp h), fun v h => .inl (List.mem_singleton.mp h), fun _ => trivial,
      fun i => ⟨[], rfl, rfl⟩⟩
  obtain ⟨w', hs⟩ := w.run sched
  obtain ⟨done, hd, ho⟩ := w'.out i
  have hs := hs i
  refine ⟨⟨done.length, ?_⟩, fun h => ?_⟩
  · rw [ho, hd, List.take_left]
  · have h0 : ((run (page, alloc) (start progs) sched).threads i).rest.2 = 0 := by
      have : ((start progs).threads i).rest.2 = 4 * (progs i).length := rfl
      omega
    have hr : ((run (page, alloc) (start progs) sched).threads i).rest.1 = [] := by
      revert h0
      unfold Thread.rest
      split
      · intro h0
        simp only [] at h0 ⊢
        exact List.eq_nil_of_length_eq_zero (by omega)
      · intro h0; simp only [] at h0; omega
      · intro h0; simp only [] at h0; omega
      · intro h0; simp only [] at h0; omega
    rw [ho, hd, hr, List.append_nil]

/-- C06 on unix: for a page size that fits 32 bits, the right answer to both queries is the page
size of the system. -/
theorem C06_unix {sysconf : Nat} (h : sysconf < 2 ^ 32) (q : Query) :
    answer (unixSystemInfo sysconf).1 (unixSystemInfo sysconf).2 q = sysconf := by
  have : asU32 sysconf = sysconf := by
    unfold asU32
    exact Nat.mod_eq_of_lt (by omega)
  cases q <;> exact this

/-- C06: the units that maps and rings round to are made of these answers. -/
theorem C06_used {k : Kernel} (h : k.page < 2 ^ 32) :
    Size.page k = Size.withSize
      (answer (unixSystemInfo k.page).1 (unixSystemInfo k.page).2 .page) ∧
    Size.alloc k = Size.withSize
      (answer (unixSystemInfo k.page).1 (unixSystemInfo k.page).2 .alloc) := by
  rw [C06_unix h, C06_unix h]
  exact ⟨rfl, rfl⟩

/-- Non-vacuity of `C06_used`. -/
example : (demo 0).page < 2 ^ 32 ∧ Size.alloc (demo 0) = Size.withSize 4096 := by
  constructor
  · decide
  · rfl

/-- Non-vacuity: two threads race; thread 1 loads zero (an old value) after thread 0 has stored both
sizes, and thread 0 then sees a cached value. -/
example : ((run (4096, 65536) (start (fun _ => [.page, .alloc]))
      [(0, 0), (1, 0), (0, 0), (0, 0), (0, 0), (1, 0), (0, 1), (1, 0), (1, 0), (1, 0)]).threads 0).out = [4096, 65536] ∧
    ((run (4096, 65536) (start (fun _ => [.page, .alloc]))
      [(0, 0), (1, 0), (0, 0), (0, 0), (0, 0), (1, 0), (0, 1), (1, 0), (1, 0), (1, 0)]).threads 1).out = [4096] := by
  decide

end Vmap
