import Verif.Model.Copy
import Verif.Model.RingCopy
/-
`std::io::copy` between an `InfiniteRing` and a buffered reader or writer; see Model/BufCopy.
-/
namespace Vmap
variable {σ τ : Type}

/-- `std::io::copy(&mut reader, &mut ring)` for an `InfiniteRing`; as `BufReader.copyToRing`.
Over src/io/buffer.rs:137-151 and src/io/ring.rs:298-318. -/
def BufReader.copyToInfinite (R : Reader σ) (t : Target) :
    Nat → (Nat → List Byte) → Kernel → BufReader σ → InfiniteRing → Nat →
    Exec (Kernel × BufReader σ × InfiniteRing × Out Nat)
  | 0, _, k, r, b, _ => return (k, r, b, .pending)
  | steps + 1, dst, k, r, b, len => do
    let (k, r, d, x) ← r.read R t k (dst 0)
    match x with
    | .ok 0 => return (k, r, b, .ok len)
    | .ok n =>
      if d.length < n then throw .panic
      else
        let ((k, b), y) ← InfiniteRing.takeAll t k b (d.take n)
        match y with
        | .ok () => BufReader.copyToInfinite R t steps (fun i => dst (i + 1)) k r b (len + n)
        | .error e => return (k, r, b, .err e)
    | .err e =>
      if e.kind = .interrupted then
        BufReader.copyToInfinite R t steps (fun i => dst (i + 1)) k r b len
      else return (k, r, b, .err e)
    | .unwound => return (k, r, b, .unwound)
    | .pending => return (k, r, b, .pending)

/-- `std::io::copy(&mut ring, &mut writer)` for an `InfiniteRing`; as `Ring.copyToWriter`.
Over src/io/ring.rs:292-296 and src/io/buffer.rs:422-440. -/
def InfiniteRing.copyToWriter (W : Writer τ) (t : Target) (fuel rounds size : Nat) :
    Nat → Kernel → InfiniteRing → BufWriter τ → Nat → Exec (Kernel × InfiniteRing × BufWriter τ × Out Nat)
  | 0, k, a, b, _ => return (k, a, b, .pending)
  | steps + 1, k, a, b, len => do
    let (a, bs) ← a.read t k size
    if bs.length = 0 then return (k, a, b, .ok len)
    else if size < bs.length then throw .panic
    else
      let (k, b, _, y) ← b.writeAll W t fuel rounds k bs
      match y with
      | .ok () => InfiniteRing.copyToWriter W t fuel rounds size steps k a b (len + bs.length)
      | .err e => return (k, a, b, .err e)
      | .unwound => return (k, a, b, .unwound)
      | .pending => return (k, a, b, .pending)

end Vmap
