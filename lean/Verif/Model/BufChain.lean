import Verif.Model.BufferStd
/-
Two buffered readers one after the other through `Read::chain`, and the vectored calls of buffered readers and writers.
These are provided by the Rust standard library (environment: not code of /repo, which overrides none of them); every
step is a method of src/io/buffer.rs.
-/
namespace Vmap
variable {σ σ' τ : Type}

/-- `Read::read` of `std::io::Chain` over two `BufReader`s; `done` tells whether the first is done with.  The result
carries the destination after the call.  Over src/io/buffer.rs:137-151. -/
def BufReader.chainRead (R : Reader σ) (R' : Reader σ') (t : Target) (k : Kernel) (a : BufReader σ)
    (b : BufReader σ') (done : Bool) (dst : List Byte) :
    Exec (Kernel × BufReader σ × BufReader σ' × Bool × List Byte × Out Nat) := do
  if done then
    let (k, b, d, x) ← b.read R' t k dst
    return (k, a, b, true, d, x)
  else
    let (k, a, d, x) ← a.read R t k dst
    match x with
    | .ok n =>
      if n = 0 ∧ dst.length ≠ 0 then
        let (k, b, d, x) ← b.read R' t k d
        return (k, a, b, true, d, x)
      else return (k, a, b, false, d, .ok n)
    | x => return (k, a, b, false, d, x)

/-- Reading a chain of two `BufReader`s to its end: `read` until it gives 0 bytes, tried again on `Interrupted`.  At most
`fuel` calls; `dst 0, dst 1, …` are the destinations.  Over src/io/buffer.rs:137-151. -/
def BufReader.chainToEnd (R : Reader σ) (R' : Reader σ') (t : Target) :
    Nat → (Nat → List Byte) → Kernel → BufReader σ → BufReader σ' → Bool → List Byte →
    Exec (Kernel × BufReader σ × BufReader σ' × Bool × List Byte × Out Unit)
  | 0, _, k, a, b, done, acc => return (k, a, b, done, acc, .pending)
  | fuel + 1, dst, k, a, b, done, acc => do
    let (k, a, b, done, d, x) ← BufReader.chainRead R R' t k a b done (dst 0)
    match x with
    | .ok 0 => return (k, a, b, done, acc, .ok ())
    | .ok n =>
      if d.length < n then throw .panic
      else BufReader.chainToEnd R R' t fuel (fun i => dst (i + 1)) k a b done (acc ++ d.take n)
    | .err e =>
      if e.kind = .interrupted then BufReader.chainToEnd R R' t fuel (fun i => dst (i + 1)) k a b done acc
      else return (k, a, b, done, acc, .err e)
    | .unwound => return (k, a, b, done, acc, .unwound)
    | .pending => return (k, a, b, done, acc, .pending)

/-- `Read::read_vectored` (std's default) on a `BufReader`: a `read` into the first slice that is not empty, or into an
empty one if all are.  Over src/io/buffer.rs:137-151. -/
def BufReader.readVectored (R : Reader σ) (t : Target) (k : Kernel) (b : BufReader σ) :
    List (List Byte) → Exec (Kernel × BufReader σ × List (List Byte) × Out Nat)
  | [] => do
    let (k, b, _, x) ← b.read R t k []
    return (k, b, [], x)
  | s :: rest => do
    if s.length = 0 then
      let (k, b, rest, x) ← BufReader.readVectored R t k b rest
      return (k, b, s :: rest, x)
    else
      let (k, b, s, x) ← b.read R t k s
      return (k, b, s :: rest, x)

/-- `Write::write_vectored` (std's default) on a `BufWriter`: a `write` of the first slice that is not empty, or of an
empty one if all are.  Over src/io/buffer.rs:422-435. -/
def BufWriter.writeVectored (W : Writer τ) (t : Target) (fuel : Nat) (k : Kernel) (b : BufWriter τ)
    (bufs : List (List Byte)) : Exec (Kernel × BufWriter τ × Out Nat) :=
  match bufs with
  | [] => b.write W t fuel k []
  | s :: rest => if s.length = 0 then BufWriter.writeVectored W t fuel k b rest else b.write W t fuel k s

end Vmap
