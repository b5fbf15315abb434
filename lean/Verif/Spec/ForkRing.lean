import Verif.Spec.Fork
import Verif.Spec.RingAt
import Verif.Spec.Queue
/-
Specification vocabulary for C128: rings after `fork`.
-/
namespace Vmap
namespace Spec
open Kernel

/-- An action other than a store to the addresses `[ptr, ptr+2*len)`. -/
def StoresElsewhere (ptr len : Nat) : Act → Prop
  | .store a _ => ¬ (ptr ≤ a ∧ a < ptr + 2 * len)
  | _ => True

/-- `RingSince t p f0 r0 s0 f r s`: in the state `f0` process `p` held the ring `r0`, with the contents
`s0` (write slice, readable bytes, bytes appended); since then `p` has called functions of the ring
(with fewer than `posBound` bytes appended since the last `clear`), and done other things that leave
its pages alone; *the other process has done anything but store to the ring's addresses*.  The state
is now `f`, the ring is `r`, and `s` is what it should hold. -/
inductive RingSince (t : Target) (p : Who) (f0 : Family) (r0 : Ring) (s0 : Win) :
    Family → Ring → Win → Prop
  | start : RingSince t p f0 r0 s0 f0 r0 s0
  | call {f r s op k' r' x} (before : RingSince t p f0 r0 s0 f r s)
      (below : (s.step op).1.total < posBound t (SeqWrite.writeCapacity r))
      (run : r.exec t (f.view p) op = .ok ((k', r'), x)) :
      RingSince t p f0 r0 s0 (f.put p k') r' (s.step op).1
  | spared {f r s a} (before : RingSince t p f0 r0 s0 f r s)
      (spares : Spares (f.view p) ⟨r.ptr, 2 * r.len⟩ a) :
      RingSince t p f0 r0 s0 (f.act t p a) r s
  | theirs {f r s a} (before : RingSince t p f0 r0 s0 f r s)
      (elsewhere : StoresElsewhere r.ptr r.len a) :
      RingSince t p f0 r0 s0 (f.act t p.other a) r s

/-- The same for an `InfiniteRing`, which has no `clear` (`FeedOk`: see C24). -/
inductive InfSince (t : Target) (p : Who) (f0 : Family) (r0 : InfiniteRing) (s0 : Lossy) :
    Family → InfiniteRing → Lossy → Prop
  | start : InfSince t p f0 r0 s0 f0 r0 s0
  | call {f r s op k' r' x} (before : InfSince t p f0 r0 s0 f r s)
      (below : (s.step op).1.total < posBound t (SeqWrite.writeCapacity r))
      (noClear : op ≠ .clear) (feed : FeedOk (SeqWrite.writeCapacity r) op)
      (run : r.exec t (f.view p) op = .ok ((k', r'), x)) :
      InfSince t p f0 r0 s0 (f.put p k') r' (s.step op).1
  | spared {f r s a} (before : InfSince t p f0 r0 s0 f r s)
      (spares : Spares (f.view p) ⟨r.ptr, 2 * r.len⟩ a) :
      InfSince t p f0 r0 s0 (f.act t p a) r s
  | theirs {f r s a} (before : InfSince t p f0 r0 s0 f r s)
      (elsewhere : StoresElsewhere r.ptr r.len a) :
      InfSince t p f0 r0 s0 (f.act t p.other a) r s

end Spec
end Vmap
