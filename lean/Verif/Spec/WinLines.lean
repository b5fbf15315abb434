import Verif.Spec.WinCopy
import Verif.Spec.Lines
/- Specifications for C181: what is left of a ring in a program on Windows. -/
namespace Vmap
namespace Spec

/-- By calls of functions of ring `i` alone, world `w` becomes one in which the ring is `r` and still a queue, with
`rest` readable, and in which the process has the memory `k`. -/
def WinLeft (tab : SysTable) (t : Target) (i cap : Nat) (wa w : WinWorld) (k : Kernel) (obj : Nat → Obj) (r : Ring)
    (rest : List Byte) : Prop :=
  ∃ w' s, WinOnlyCalls tab t (· = i) w w' ∧ w'.held i = some (.ring r) ∧ WinShows w'.s k obj ∧
    WinQueue tab t i cap wa w' s ∧ s.q = rest

/-- The same for an infinite ring. -/
def WinLeftInf (tab : SysTable) (t : Target) (i cap : Nat) (wa w : WinWorld) (k : Kernel) (obj : Nat → Obj)
    (r : InfiniteRing) (rest : List Byte) : Prop :=
  ∃ w' s, WinOnlyCalls tab t (· = i) w w' ∧ w'.held i = some (.inf r) ∧ WinShows w'.s k obj ∧
    WinLossy tab t i cap wa w' s ∧ s.q = rest

end Spec
end Vmap
