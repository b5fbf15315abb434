import Verif.Model.WinBuffer
import Verif.Spec.WinQueue
import Verif.Spec.Buffer
/-
Specification vocabulary for C143, C144: buffered readers and writers in whole programs on Windows.
-/
namespace Vmap
open Spec

namespace Spec

/-- In state `w` the program calls `op` on the `BufReader` `b`, whose ring is handle `i`: it answers `x`,
hands out the bytes `out`, and leaves `b'` and the state `w'`.  The call runs in some memory `k` of the
process; the contents and positions it leaves behind are the ring's. -/
def WinRdCall {σ : Type} (R : Reader σ) (tab : SysTable) (t : Target) (w : WinWorld) (i : Nat) (b : BufReader σ)
    (op : RdOp) (x : RdResp) (out : List Byte) (b' : BufReader σ) (w' : WinWorld) : Prop :=
  ∃ v k obj k', w.held i = some (.ring b.buf) ∧ v ∈ w.s.views ∧ v.base = b.buf.ptr ∧ Kernel.Wf t k ∧
    WinShows w.s k obj ∧ b.exec R t k op = .ok ((k', b'), x, out) ∧
    w.step tab t (.ringUse i b'.buf.rpos b'.buf.wpos (k'.data (obj v.sec.id))) = .ok w'

/-- The same for a call on a `BufWriter`. -/
def WinWrCall {σ : Type} (W : Writer σ) (fuel : Nat) (tab : SysTable) (t : Target) (w : WinWorld) (i : Nat)
    (b : BufWriter σ) (op : WrOp) (x : Out Nat) (b' : BufWriter σ) (w' : WinWorld) : Prop :=
  ∃ v k obj k', w.held i = some (.ring b.buf) ∧ v ∈ w.s.views ∧ v.base = b.buf.ptr ∧ Kernel.Wf t k ∧
    WinShows w.s k obj ∧ b.exec W t fuel k op = .ok ((k', b'), x) ∧
    w.step tab t (.ringUse i b'.buf.rpos b'.buf.wpos (k'.data (obj v.sec.id))) = .ok w'

/-- The program drops the `BufWriter` `b`, whose ring is handle `i`: the inner writer is `inner` at the end,
the drop ends with `x`, and the state is `w'`. -/
def WinWrDrop {σ : Type} (W : Writer σ) (fuel : Nat) (tab : SysTable) (t : Target) (w : WinWorld) (i : Nat)
    (b : BufWriter σ) (inner : σ) (x : Out Unit) (w' : WinWorld) : Prop :=
  ∃ k obj, w.held i = some (.ring b.buf) ∧ Kernel.Wf t k ∧ WinShows w.s k obj ∧
    b.lastFlush W t fuel k = .ok (inner, x) ∧ x ≠ .pending ∧ w.step tab t (.drop i) = .ok w'

/-- In state `w0` the program has just made the `BufReader` `b0` (its ring is handle `i`); since then it has
made `calls` calls on it, which handed out `out`, and done anything else, in any order.  Now the state is
`w`, and the reader is `b`. -/
inductive WinReads {σ : Type} (R : Reader σ) (tab : SysTable) (t : Target) (i : Nat) (w0 : WinWorld)
    (b0 : BufReader σ) : WinWorld → BufReader σ → (out : List Byte) → (calls : Nat) → Prop
  | made : WinReads R tab t i w0 b0 w0 b0 [] 0
  | call {w w' : WinWorld} {b b' : BufReader σ} {out o : List Byte} {c : Nat} {op : RdOp} {x : RdResp}
      (before : WinReads R tab t i w0 b0 w b out c) (call : WinRdCall R tab t w i b op x o b' w') :
      WinReads R tab t i w0 b0 w' b' (out ++ o) (c + 1)
  | other {w w' : WinWorld} {b : BufReader σ} {out : List Byte} {c : Nat} {op : WinOp}
      (before : WinReads R tab t i w0 b0 w b out c) (sane : op.Sane t w) (step : w.step tab t op = .ok w')
      (nouse : ∀ r p m, op ≠ .ringUse i r p m) (nodrop : op ≠ .drop i) : WinReads R tab t i w0 b0 w' b out c

/-- The same for a `BufWriter`, of whose data the bytes `acc` were accepted; `fits` says whether some write
exactly filled the free space while something was buffered (see C58). -/
inductive WinWrites {σ : Type} (W : Writer σ) (fuel : Nat) (tab : SysTable) (t : Target) (i : Nat) (w0 : WinWorld)
    (b0 : BufWriter σ) : WinWorld → BufWriter σ → (acc : List Byte) → (calls : Nat) → (fits : Prop) → Prop
  | made : WinWrites W fuel tab t i w0 b0 w0 b0 [] 0 False
  | call {w w' : WinWorld} {b b' : BufWriter σ} {acc : List Byte} {c : Nat} {fits : Prop} {op : WrOp} {x : Out Nat}
      (before : WinWrites W fuel tab t i w0 b0 w b acc c fits) (call : WinWrCall W fuel tab t w i b op x b' w') :
      WinWrites W fuel tab t i w0 b0 w' b' (acc ++ op.accepted x) (c + 1)
        (fits ∨ ∃ data, op = .write data ∧ b.buf.writeLen t = .ok data.length ∧ b.buf.readLen t ≠ .ok 0)
  | other {w w' : WinWorld} {b : BufWriter σ} {acc : List Byte} {c : Nat} {fits : Prop} {op : WinOp}
      (before : WinWrites W fuel tab t i w0 b0 w b acc c fits) (sane : op.Sane t w)
      (step : w.step tab t op = .ok w') (nouse : ∀ r p m, op ≠ .ringUse i r p m) (nodrop : op ≠ .drop i) :
      WinWrites W fuel tab t i w0 b0 w' b acc c fits

end Spec
end Vmap
