import Verif.Spec.WinQueue
/-
Specification vocabulary for C179: what a program on Windows does while it calls functions of rings only.
-/
namespace Vmap
namespace Spec

/-- The program gets from `w` to `w'` by calling functions of the rings in `S`, and by nothing else. -/
inductive WinOnlyCalls (tab : SysTable) (t : Target) (S : Nat → Prop) (w : WinWorld) : WinWorld → Prop
  | refl : WinOnlyCalls tab t S w w
  | ring {w1 w2 : WinWorld} {i : Nat} {op : RingOp} {x : Resp} (before : WinOnlyCalls tab t S w w1) (on : S i)
      (call : WinRingCall tab t w1 i op x w2) : WinOnlyCalls tab t S w w2
  | inf {w1 w2 : WinWorld} {i : Nat} {op : RingOp} {x : Resp} (before : WinOnlyCalls tab t S w w1) (on : S i)
      (call : WinInfCall tab t w1 i op x w2) : WinOnlyCalls tab t S w w2

end Spec
end Vmap
