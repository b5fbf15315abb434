import Verif.Model.Copy
import Verif.Model.RingStd
/-
`std::io::copy` between a ring and a buffered reader or writer.  The loop is that of the Rust standard
library (environment: not code of /repo, which overrides none of the methods it uses); every step is a
method of src/io/buffer.rs or src/io/ring.rs.
-/
namespace Vmap
variable {σ τ : Type}

/-- `std::io::copy(&mut reader, &mut ring)`; as `ioCopy`, with the ring as target.
Over src/io/buffer.rs:137-151 and src/io/ring.rs:150-158. -/
def BufReader.copyToRing (R : Reader σ) (t : Target) :
    Nat → (Nat → List Byte) → Kernel → BufReader σ → Ring → Nat →
    Exec (Kernel × BufReader σ × Ring × Out Nat)
  | 0, _, k, r, b, _ => return (k, r, b, .pending)
  | steps + 1, dst, k, r, b, len => do
    let (k, r, d, x) ← r.read R t k (dst 0)
    match x with
    | .ok 0 => return (k, r, b, .ok len)
    | .ok n =>
      if d.length < n then throw .panic
      else
        let ((k, b), y) ← b.writeAll t k (d.take n)
        match y with
        | .ok () => BufReader.copyToRing R t steps (fun i => dst (i + 1)) k r b (len + n)
        | .error e => return (k, r, b, .err e)
    | .err e =>
      if e.kind = .interrupted then
        BufReader.copyToRing R t steps (fun i => dst (i + 1)) k r b len
      else return (k, r, b, .err e)
    | .unwound => return (k, r, b, .unwound)
    | .pending => return (k, r, b, .pending)

/-- `std::io::copy(&mut ring, &mut writer)`; as `ioCopy`, with the ring as source and a copy buffer of
`size` bytes (8 KiB in the standard library).  (`Interrupted` does not occur: no `read` of a ring fails.)
Over src/io/ring.rs:144-148 and src/io/buffer.rs:422-440. -/
def Ring.copyToWriter (W : Writer τ) (t : Target) (fuel rounds size : Nat) :
    Nat → Kernel → Ring → BufWriter τ → Nat → Exec (Kernel × Ring × BufWriter τ × Out Nat)
  | 0, k, a, b, _ => return (k, a, b, .pending)
  | steps + 1, k, a, b, len => do
    let (a, bs) ← a.read t k size
    if bs.length = 0 then return (k, a, b, .ok len)
    else if size < bs.length then throw .panic
    else
      let (k, b, _, y) ← b.writeAll W t fuel rounds k bs
      match y with
      | .ok () => Ring.copyToWriter W t fuel rounds size steps k a b (len + bs.length)
      | .err e => return (k, a, b, .err e)
      | .unwound => return (k, a, b, .unwound)
      | .pending => return (k, a, b, .pending)

end Vmap
