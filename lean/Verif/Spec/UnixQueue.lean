import Verif.Spec.World
import Verif.Spec.Buffer
/-
Specification vocabulary for C151–C153: what rings, buffered readers and buffered writers hold in the
course of a whole program on Unix (macOS included: see `Kernel.mach`).
-/
namespace Vmap
open Spec

namespace Spec

/-- `Queued tab t i cap w0 w s`: in state `w0` the program has just made a `Ring` of `cap` bytes, as handle
`i`; since then it has called functions of the ring (with fewer than `posBound` bytes appended since the
last `clear`), and done anything else but drop the ring, in any order.  The state is now `w`, and `s` is
what the ring should hold (write slice, readable bytes, bytes appended). -/
inductive Queued (tab : SysTable) (t : Target) (i cap : Nat) (w0 : World) : World → Spec.Win → Prop
  | made : Queued tab t i cap w0 w0 ⟨List.replicate cap 0, [], 0⟩
  | call {w w' : World} {s : Spec.Win} {op : RingOp} (before : Queued tab t i cap w0 w s)
      (below : (s.step op).1.total < posBound t cap) (call : w.step tab t (.ringOp i op) = .ok w') :
      Queued tab t i cap w0 w' (s.step op).1
  | other {w w' : World} {s : Spec.Win} {op : Op} (before : Queued tab t i cap w0 w s) (sane : op.Sane t w)
      (step : w.step tab t op = .ok w') (else_ : op.target ≠ some i) : Queued tab t i cap w0 w' s

/-- The same for an `InfiniteRing`, which has no `clear` (`FeedOk`: see C24); `write_all` appends the last
bytes of its argument. -/
inductive Retained (tab : SysTable) (t : Target) (i cap : Nat) (w0 : World) : World → Lossy → Prop
  | made : Retained tab t i cap w0 w0 ⟨List.replicate cap 0, [], 0⟩
  | call {w w' : World} {s : Lossy} {op : RingOp} (before : Retained tab t i cap w0 w s)
      (below : (s.step op).1.total < posBound t cap) (noClear : op ≠ .clear) (feed : FeedOk cap op)
      (call : w.step tab t (.infOp i op) = .ok w') : Retained tab t i cap w0 w' (s.step op).1
  | all {w w' : World} {s : Lossy} {bs : List Byte} (before : Retained tab t i cap w0 w s)
      (below : s.total + min bs.length cap < posBound t cap) (call : w.step tab t (.infAll i bs) = .ok w') :
      Retained tab t i cap w0 w' (s.append (lastN cap bs))
  | other {w w' : World} {s : Lossy} {op : Op} (before : Retained tab t i cap w0 w s) (sane : op.Sane t w)
      (step : w.step tab t op = .ok w') (else_ : op.target ≠ some i) : Retained tab t i cap w0 w' s

/-- In state `w` the program calls `op` on the `BufReader` `b`, whose ring is handle `i`: it answers `x`,
hands out the bytes `out`, and leaves `b'` and the state `w'`.  (The count of bytes appended is the ring's
write position, as the ring is never cleared.) -/
def RdCall {σ : Type} (R : Reader σ) (t : Target) (w : World) (i : Nat) (b : BufReader σ) (op : RdOp) (x : RdResp)
    (out : List Byte) (b' : BufReader σ) (w' : World) : Prop :=
  ∃ n k', w.held i = some (.ring b.buf n) ∧ b.exec R t w.k op = .ok ((k', b'), x, out) ∧
    w' = w.upd k' i (some (.ring b'.buf b'.buf.wpos))

/-- The same for a call on a `BufWriter`. -/
def WrCall {σ : Type} (W : Writer σ) (fuel : Nat) (t : Target) (w : World) (i : Nat) (b : BufWriter σ) (op : WrOp)
    (x : Out Nat) (b' : BufWriter σ) (w' : World) : Prop :=
  ∃ n k', w.held i = some (.ring b.buf n) ∧ b.exec W t fuel w.k op = .ok ((k', b'), x) ∧
    w' = w.upd k' i (some (.ring b'.buf b'.buf.wpos))

/-- In state `w0` the program has just made the `BufReader` `b0` (its ring is handle `i`); since then it has
made `calls` calls on it, which handed out `out`, and done anything else, in any order.  Now the state is
`w`, and the reader is `b`. -/
inductive Reads {σ : Type} (R : Reader σ) (tab : SysTable) (t : Target) (i : Nat) (w0 : World) (b0 : BufReader σ) :
    World → BufReader σ → (out : List Byte) → (calls : Nat) → Prop
  | made : Reads R tab t i w0 b0 w0 b0 [] 0
  | call {w w' : World} {b b' : BufReader σ} {out o : List Byte} {c : Nat} {op : RdOp} {x : RdResp}
      (before : Reads R tab t i w0 b0 w b out c) (call : RdCall R t w i b op x o b' w') :
      Reads R tab t i w0 b0 w' b' (out ++ o) (c + 1)
  | other {w w' : World} {b : BufReader σ} {out : List Byte} {c : Nat} {op : Op}
      (before : Reads R tab t i w0 b0 w b out c) (sane : op.Sane t w) (step : w.step tab t op = .ok w')
      (else_ : op.target ≠ some i) : Reads R tab t i w0 b0 w' b out c

/-- The same for a `BufWriter`, of whose data the bytes `acc` were accepted; `fits` says whether some write
exactly filled the free space while something was buffered (see C58). -/
inductive Writes {σ : Type} (W : Writer σ) (fuel : Nat) (tab : SysTable) (t : Target) (i : Nat) (w0 : World)
    (b0 : BufWriter σ) : World → BufWriter σ → (acc : List Byte) → (calls : Nat) → (fits : Prop) → Prop
  | made : Writes W fuel tab t i w0 b0 w0 b0 [] 0 False
  | call {w w' : World} {b b' : BufWriter σ} {acc : List Byte} {c : Nat} {fits : Prop} {op : WrOp} {x : Out Nat}
      (before : Writes W fuel tab t i w0 b0 w b acc c fits) (call : WrCall W fuel t w i b op x b' w') :
      Writes W fuel tab t i w0 b0 w' b' (acc ++ op.accepted x) (c + 1)
        (fits ∨ ∃ data, op = .write data ∧ b.buf.writeLen t = .ok data.length ∧ b.buf.readLen t ≠ .ok 0)
  | other {w w' : World} {b : BufWriter σ} {acc : List Byte} {c : Nat} {fits : Prop} {op : Op}
      (before : Writes W fuel tab t i w0 b0 w b acc c fits) (sane : op.Sane t w) (step : w.step tab t op = .ok w')
      (else_ : op.target ≠ some i) : Writes W fuel tab t i w0 b0 w' b acc c fits

end Spec
end Vmap
