import Verif.Spec.World
/-
Specification vocabulary for C168: what a program does while it calls functions of rings only.
-/
namespace Vmap
namespace Spec

/-- The ring a step calls a function of, if it is such a step. -/
def calledRing : Op → Option Nat
  | .ringOp i _ => some i
  | .infOp i _ => some i
  | .infAll i _ => some i
  | _ => none

/-- The program gets from `w` to `w'` by calling functions of the rings in `S`, and by nothing else. -/
inductive OnlyCalls (tab : SysTable) (t : Target) (S : Nat → Prop) (w : World) : World → Prop
  | refl : OnlyCalls tab t S w w
  | step {w1 w2 : World} {op : Op} {i : Nat} (before : OnlyCalls tab t S w w1) (call : calledRing op = some i)
      (on : S i) (sane : op.Sane t w1) (step : w1.step tab t op = .ok w2) : OnlyCalls tab t S w w2

/-- How many bytes leave the source when `len` bytes are copied, in pieces of `size` bytes, to a ring
with room for `room`: all if they fit; else the pieces up to the first one that does not fit. -/
def leaves (size room len : Nat) : Nat := if len ≤ room then len else (room / size + 1) * size

end Spec
end Vmap
