import Verif.Spec.WinWorld
import Verif.Spec.Queue
/-
Specification vocabulary for C129: what rings hold in the course of a whole program on Windows.
-/
namespace Vmap
open Spec

namespace Spec

/-- `k` is a possible memory of the process `s` (see `WinMem`), and memory that is of no file has the
contents there that it has in `s`. -/
structure WinShows (s : Vmap.Win) (k : Kernel) (obj : Nat → Obj) : Prop where
  mem : WinMem s k obj
  bytes : ∀ v, v ∈ s.views → v.sec.file = none → ∀ n, k.data (obj v.sec.id) n = s.bytes.mem v.sec.id n

/-- In state `w` the program calls `op` on the `Ring` that it holds as handle `i`, which answers `x`;
the state is then `w'`.  The call runs in some memory `k` of the process; the contents and positions it
leaves behind are the ring's. -/
def WinRingCall (tab : SysTable) (t : Target) (w : WinWorld) (i : Nat) (op : RingOp) (x : Resp) (w' : WinWorld) :
    Prop :=
  ∃ r v k obj k' r', w.held i = some (.ring r) ∧ v ∈ w.s.views ∧ v.base = r.ptr ∧ Kernel.Wf t k ∧
    WinShows w.s k obj ∧ r.exec t k op = .ok ((k', r'), x) ∧
    w.step tab t (.ringUse i r'.rpos r'.wpos (k'.data (obj v.sec.id))) = .ok w'

/-- The same for an `InfiniteRing`. -/
def WinInfCall (tab : SysTable) (t : Target) (w : WinWorld) (i : Nat) (op : RingOp) (x : Resp) (w' : WinWorld) :
    Prop :=
  ∃ r v k obj k' r', w.held i = some (.inf r) ∧ v ∈ w.s.views ∧ v.base = r.ptr ∧ Kernel.Wf t k ∧
    WinShows w.s k obj ∧ r.exec t k op = .ok ((k', r'), x) ∧
    w.step tab t (.infUse i r'.rlen r'.wpos (k'.data (obj v.sec.id))) = .ok w'

/-- `WinQueue tab t i cap w w' s`: in state `w` the program has just made a `Ring` of `cap` bytes, as
handle `i`; since then it has called functions of the ring (with fewer than `posBound` bytes appended
since the last `clear`), and done anything else, in any order.  The state is now `w'`, and `s` is what
the ring should hold (write slice, readable bytes, bytes appended). -/
inductive WinQueue (tab : SysTable) (t : Target) (i cap : Nat) (w : WinWorld) : WinWorld → Spec.Win → Prop
  | made : WinQueue tab t i cap w w ⟨List.replicate cap 0, [], 0⟩
  | call {w1 w2 : WinWorld} {s : Spec.Win} {op : RingOp} {x : Resp} (before : WinQueue tab t i cap w w1 s)
      (below : (s.step op).1.total < posBound t cap) (call : WinRingCall tab t w1 i op x w2) :
      WinQueue tab t i cap w w2 (s.step op).1
  | other {w1 w2 : WinWorld} {s : Spec.Win} {op : WinOp} (before : WinQueue tab t i cap w w1 s)
      (sane : op.Sane t w1) (step : w1.step tab t op = .ok w2) (nouse : ∀ r p m, op ≠ .ringUse i r p m)
      (nodrop : op ≠ .drop i) : WinQueue tab t i cap w w2 s

/-- The same for an `InfiniteRing`, which has no `clear` (`FeedOk`: see C24). -/
inductive WinLossy (tab : SysTable) (t : Target) (i cap : Nat) (w : WinWorld) : WinWorld → Lossy → Prop
  | made : WinLossy tab t i cap w w ⟨List.replicate cap 0, [], 0⟩
  | call {w1 w2 : WinWorld} {s : Lossy} {op : RingOp} {x : Resp} (before : WinLossy tab t i cap w w1 s)
      (below : (s.step op).1.total < posBound t cap) (noClear : op ≠ .clear) (feed : FeedOk cap op)
      (call : WinInfCall tab t w1 i op x w2) : WinLossy tab t i cap w w2 (s.step op).1
  | other {w1 w2 : WinWorld} {s : Lossy} {op : WinOp} (before : WinLossy tab t i cap w w1 s)
      (sane : op.Sane t w1) (step : w1.step tab t op = .ok w2) (nouse : ∀ r p m, op ≠ .infUse i r p m)
      (nodrop : op ≠ .drop i) : WinLossy tab t i cap w w2 s

end Spec
end Vmap
