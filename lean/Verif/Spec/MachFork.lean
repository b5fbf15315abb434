import Verif.Model.MachFork
import Verif.Spec.Platform
/-
The memory of a child process on macOS, and which calls on a ring reach over its end.
-/
namespace Vmap
namespace Spec

/-- `kc` is a possible memory of a child forked from the task `s` when its memory was `k`: it is a memory
of the child's task, inherited pages hold the bytes they held, and nothing is mapped where
pages were not inherited. -/
structure MachChild (t : Target) (s : Mach) (k kc : Kernel) (obj : Nat → Obj) : Prop where
  mem : MachMem (s.child t) kc obj s.fresh
  same : ∀ q i, s.pt q ≠ none → s.heir q = true → i < s.page →
    kc.load (q * s.page + i) = k.load (q * s.page + i)
  gone : ∀ q, s.pt q ≠ none → s.heir q = false → kc.pt q = none

/-- Pages `p ..< p + n` are in `s'` what they are in `s`. -/
def SamePages (s s' : Mach) (p n : Nat) : Prop :=
  s'.page = s.page ∧ ∀ i, i < n → s'.pt (p + i) = s.pt (p + i) ∧ s'.heir (p + i) = s.heir (p + i)

/-- The bytes that a call on a ring of capacity `len` in state `s` reads or writes, as position in the ring
and number of bytes, do not extend over the end of the ring. -/
def inside (len : Nat) (s : Win) : RingOp → Bool
  | .write bs => s.total % len + min bs.length s.spare.length ≤ len
  | .poke bs => s.total % len + min bs.length s.spare.length ≤ len
  | .writeSlice max => s.total % len + min max s.spare.length ≤ len
  | .read m => (s.total - s.q.length) % len + min m s.q.length ≤ len
  | .readSlice m => (s.total - s.q.length) % len + min m s.q.length ≤ len
  | _ => true

/-- None of the calls, made one after the other, does. -/
def allInside (len : Nat) : Win → List RingOp → Bool
  | _, [] => true
  | s, op :: ops => inside len s op && allInside len (s.step op).1 ops

end Spec
end Vmap
