import Verif.Model.Copy
import Verif.Spec.BufferStd
import Verif.Spec.BufWorld
/- Specifications for C127: copying from a `BufReader` to a `BufWriter`. -/
namespace Vmap
open Kernel Spec
variable {σ τ : Type}

/-- In no round of the copy does the piece that was read exactly fill the free space of the writer's
buffer while something is in it. -/
def NoPieceFits (R : Reader σ) (W : Writer τ) (t : Target) (fuel rounds : Nat) :
    Nat → (Nat → List Byte) → Kernel → BufReader σ → BufWriter τ → Prop
  | 0, _, _, _, _ => True
  | steps + 1, dst, k, r, w => ∀ k1 r1 d x, r.read R t k (dst 0) = .ok (k1, r1, d, x) →
    match x with
    | .ok n => n ≠ 0 →
      (∀ q, w.buffered t k1 = .ok q →
        q = [] ∨ q.length + n ≠ SeqWrite.writeCapacity w.buf) ∧
      ∀ k2 w2 left, w.writeAll W t fuel rounds k1 (d.take n) = .ok (k2, w2, left, .ok ()) →
        NoPieceFits R W t fuel rounds steps (fun i => dst (i + 1)) k2 r1 w2
    | .err _ => NoPieceFits R W t fuel rounds steps (fun i => dst (i + 1)) k1 r1 w
    | _ => True

/-- A reader handing out one prepared piece per call (which must fit), then end of file. -/
def pieces : Reader (List (List Byte)) where
  read s offered := match s with
    | [] => ([], .ok 0 [])
    | c :: cs => if c.length ≤ offered.length then (cs, .ok c.length c) else (c :: cs, .ok 0 [])

/-- A writer accepting everything. -/
def takesAll : Writer Unit where
  write s data := (s, .ok data.length)
  flush s := (s, .ok)

end Vmap
