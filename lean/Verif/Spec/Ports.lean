import Verif.Spec.World
/-
Specification vocabulary for C142: the port rights a program on macOS holds.
-/
namespace Vmap

/-- The step asks for a new ring. -/
def Op.asksRing : Op → Bool
  | .newRing _ => true
  | .newInf _ => true
  | _ => false

/-- `RingRun tab t w c a w'`: the program gets from `w` to `w'`; on the way it has asked for a ring `a`
times and obtained one `c` times (a step obtains something when the number of the next unused handle
goes up). -/
inductive RingRun (tab : SysTable) (t : Target) (w : World) : Nat → Nat → World → Prop
  | refl : RingRun tab t w 0 0 w
  | step {w1 w2 : World} {c a : Nat} {op : Op} (before : RingRun tab t w c a w1) (sane : op.Sane t w1)
      (step : w1.step tab t op = .ok w2) :
      RingRun tab t w (if op.asksRing ∧ w2.next ≠ w1.next then c + 1 else c)
        (if op.asksRing then a + 1 else a) w2

end Vmap
