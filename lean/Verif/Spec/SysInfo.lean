import Verif.Model.SysInfo
/-
Specification vocabulary for the cached system sizes.
-/
namespace Vmap
namespace Spec

/-- The right answer to a query. -/
def answer (page alloc : Nat) : Query → Nat
  | .page => page
  | .alloc => alloc

/-- The number of steps a schedule gives to thread `i`. -/
def stepsOf (i : Nat) (sched : List (Nat × Nat)) : Nat := sched.countP (fun x => x.1 == i)

end Spec

end Vmap
