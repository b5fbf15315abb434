import Verif.Model.Mach
/-
What a ring should look like on macOS.
-/
namespace Vmap
namespace Spec

/-- Consistency of a task: pages and memory entries show objects that exist, and port names not yet
handed out are unused. -/
structure MachWf (s : Mach) : Prop where
  page : 0 < s.page
  objs : ∀ q e, s.pt q = some e → e.1 < s.fresh
  ports : ∀ q, s.nextPort ≤ q → s.ports q = none
  entries : ∀ q e, s.ports q = some e → e.1 < s.fresh

/-- A ring of `n` pages was created at `addr`: `2 * n` pages, unused before, inside the address space;
page `i` and page `n + i` show page `i` of one new object; no other page changed.  A child process
gets (a copy of) the first half and nothing in place of the second. -/
structure MachRing (t : Target) (s s' : Mach) (addr n : Nat) : Prop where
  aligned : addr % s.page = 0
  place : addr ≠ 0 ∧ addr + 2 * n * s.page < t.lim
  free : ∀ i, i < 2 * n → s.pt (addr / s.page + i) = none
  shows' : ∃ o, s.fresh ≤ o ∧ ∀ i, i < n →
    s'.pt (addr / s.page + i) = some (o, i) ∧ s'.pt (addr / s.page + n + i) = some (o, i)
  others : ∀ q, (∀ i, i < 2 * n → q ≠ addr / s.page + i) → s'.pt q = s.pt q
  heirs : ∀ i, i < n → s'.heir (addr / s.page + i) = true ∧ s'.heir (addr / s.page + n + i) = false

/-- Exactly one port right more is held than before. -/
def OnePortMore (s s' : Mach) : Prop :=
  ∃ port e, s.ports port = none ∧ s'.ports port = some e ∧ ∀ q, q ≠ port → s'.ports q = s.ports q

end Spec
end Vmap
