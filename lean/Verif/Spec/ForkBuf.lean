import Verif.Spec.ForkRing
import Verif.Spec.Buffer
/-
Specification vocabulary for C136: buffered readers and writers after `fork`.
-/
namespace Vmap
namespace Spec
open Kernel
variable {σ : Type}

/-- `WriterSince W t fuel p f0 b0 f b acc c`: in the state `f0` process `p` had the `BufWriter` `b0`;
since then it has made `c` calls on it, which accepted the bytes `acc`, and done other things that leave
the pages of its ring alone; *the other process has done anything but store to the addresses of the
ring*.  The state is now `f`, and the `BufWriter` is `b`. -/
inductive WriterSince (W : Writer σ) (t : Target) (fuel : Nat) (p : Who) (f0 : Family)
    (b0 : BufWriter (σ × List WriteEvent)) :
    Family → BufWriter (σ × List WriteEvent) → List Byte → Nat → Prop
  | start : WriterSince W t fuel p f0 b0 f0 b0 [] 0
  | call {f b acc c op k' b' x} (before : WriterSince W t fuel p f0 b0 f b acc c)
      (run : b.exec W.spy t fuel (f.view p) op = .ok ((k', b'), x)) :
      WriterSince W t fuel p f0 b0 (f.put p k') b' (acc ++ op.accepted x) (c + 1)
  | spared {f b acc c a} (before : WriterSince W t fuel p f0 b0 f b acc c)
      (spares : Spares (f.view p) ⟨b.buf.ptr, 2 * b.buf.len⟩ a) :
      WriterSince W t fuel p f0 b0 (f.act t p a) b acc c
  | theirs {f b acc c a} (before : WriterSince W t fuel p f0 b0 f b acc c)
      (elsewhere : StoresElsewhere b.buf.ptr b.buf.len a) :
      WriterSince W t fuel p f0 b0 (f.act t p.other a) b acc c

/-- The same for a `BufReader`; `out` are the bytes its calls have handed out. -/
inductive ReaderSince (R : Reader σ) (t : Target) (p : Who) (f0 : Family)
    (b0 : BufReader (σ × List ReadEvent)) :
    Family → BufReader (σ × List ReadEvent) → List Byte → Nat → Prop
  | start : ReaderSince R t p f0 b0 f0 b0 [] 0
  | call {f b out c op k' b' x o} (before : ReaderSince R t p f0 b0 f b out c)
      (run : b.exec R.spy t (f.view p) op = .ok ((k', b'), x, o)) :
      ReaderSince R t p f0 b0 (f.put p k') b' (out ++ o) (c + 1)
  | spared {f b out c a} (before : ReaderSince R t p f0 b0 f b out c)
      (spares : Spares (f.view p) ⟨b.buf.ptr, 2 * b.buf.len⟩ a) :
      ReaderSince R t p f0 b0 (f.act t p a) b out c
  | theirs {f b out c a} (before : ReaderSince R t p f0 b0 f b out c)
      (elsewhere : StoresElsewhere b.buf.ptr b.buf.len a) :
      ReaderSince R t p f0 b0 (f.act t p.other a) b out c

/-- A writer that always takes all it is offered. -/
def TakesAll (W : Writer σ) : Prop :=
  ∀ s data, (W.write s data).2 = .ok data.length

end Spec
end Vmap
