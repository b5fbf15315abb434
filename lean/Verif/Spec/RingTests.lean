import Verif.Spec.Kernel
/-
Specification vocabulary for C163: the crate's own tests of rings.
-/
namespace Vmap
namespace Spec

/-- Nothing is left of a program that ran from `k` to `k'`: no mapping and no descriptor. -/
structure Cleared (t : Target) (k k' : Kernel) : Prop where
  wf : Kernel.Wf t k'
  page : k'.page = k.page
  pt : k'.pt = k.pt
  fds : k'.fds = k.fds

/-- The page sizes (on Windows: allocation granularities) for which the tests are considered: from 4 KiB to
16 MiB. -/
def TestUnit (unit : Nat) : Prop := 4096 ≤ unit ∧ unit ≤ 2 ^ 24

end Spec
end Vmap
