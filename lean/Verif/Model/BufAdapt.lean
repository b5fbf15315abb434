import Verif.Model.BufferStd
/-
Buffered readers through `Read::take` and `Read::bytes`, and formatted text (`write!`) to buffered writers.  The loops are
those of the Rust standard library (environment: not code of /repo, which overrides none of them); every step is a
method of src/io/buffer.rs.
-/
namespace Vmap
variable {σ τ : Type}

/-- `reader.by_ref().take(limit).read_to_end(&mut acc)` (std): as `BufReader.readToEnd`, but each destination is cut to
what is left of the limit, and nothing is read once nothing is left.  The third component is the limit afterwards.
Over src/io/buffer.rs:137-151. -/
def BufReader.takeToEnd (R : Reader σ) (t : Target) :
    Nat → (Nat → List Byte) → Kernel → BufReader σ → Nat → List Byte →
    Exec (Kernel × BufReader σ × Nat × List Byte × Out Unit)
  | 0, _, k, b, limit, acc => return (k, b, limit, acc, .pending)
  | fuel + 1, dst, k, b, limit, acc => do
    if limit = 0 then return (k, b, limit, acc, .ok ())
    else
      let (k, b, d, x) ← b.read R t k ((dst 0).take limit)
      match x with
      | .ok 0 => return (k, b, limit, acc, .ok ())
      | .ok n =>
        if limit < n ∨ d.length < n then throw .panic
        else BufReader.takeToEnd R t fuel (fun i => dst (i + 1)) k b (limit - n) (acc ++ d.take n)
      | .err e =>
        if e.kind = .interrupted then BufReader.takeToEnd R t fuel (fun i => dst (i + 1)) k b limit acc
        else return (k, b, limit, acc, .err e)
      | .unwound => return (k, b, limit, acc, .unwound)
      | .pending => return (k, b, limit, acc, .pending)

/-- `Iterator::next` of `std::io::Bytes` over a `BufReader`: a read of one byte, tried again on `Interrupted`, at most
`fuel` times; `none` when there is none.  The byte of the destination is 0 before.  Over src/io/buffer.rs:137-151. -/
def BufReader.nextByte (R : Reader σ) (t : Target) :
    Nat → Kernel → BufReader σ → Exec (Kernel × BufReader σ × Out (Option Byte))
  | 0, k, b => return (k, b, .pending)
  | fuel + 1, k, b => do
    let (k, b, d, x) ← b.read R t k [0]
    match x with
    | .ok 0 => return (k, b, .ok none)
    | .ok _ => return (k, b, .ok d.head?)
    | .err e =>
      if e.kind = .interrupted then BufReader.nextByte R t fuel k b
      else return (k, b, .err e)
    | .unwound => return (k, b, .unwound)
    | .pending => return (k, b, .pending)

/-- `write!` (`Write::write_fmt`, std) on a `BufWriter`: `write_all` of one piece of the formatted text after the other,
up to the first error.
Over src/io/buffer.rs:422-440. -/
def BufWriter.writeFmt (W : Writer τ) (t : Target) (fuel rounds : Nat) :
    Kernel → BufWriter τ → List (List Byte) → Exec (Kernel × BufWriter τ × Out Unit)
  | k, b, [] => return (k, b, .ok ())
  | k, b, p :: ps => do
    let (k, b, _, x) ← b.writeAll W t fuel rounds k p
    match x with
    | .ok () => BufWriter.writeFmt W t fuel rounds k b ps
    | .err e => return (k, b, .err e)
    | .unwound => return (k, b, .unwound)
    | .pending => return (k, b, .pending)

end Vmap
