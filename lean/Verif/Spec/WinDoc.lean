import Verif.Spec.WinQueue
/-
Specification vocabulary for C161 and C162: the examples of rings and buffered writers on Windows.
-/
namespace Vmap
open Spec
namespace Spec

/-- `mem s` is a memory of the process whenever the views of `s` are laid out properly. -/
def WinMemory (t : Target) (mem : Vmap.Win → Kernel) : Prop :=
  ∀ s, WinLaid t s → Kernel.Wf t (mem s) ∧ ∃ obj, WinShows s (mem s) obj

/-- Nothing is left of a program that ran from `s` to `s'`. -/
structure WinGone (s s' : Vmap.Win) : Prop where
  views : s'.views = s.views
  rest : WinRest s s'

end Spec
end Vmap
