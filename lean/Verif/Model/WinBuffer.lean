import Verif.Model.Platform
import Verif.Model.Buffer
/-
Buffered readers and writers on Windows: src/io/buffer.rs over the rings of src/os/windows.rs.
The calls in between (`read`, `write`, `flush`, …) are those of Model/Buffer, run in a memory of the
process; here is what makes and takes apart the ring.
-/
namespace Vmap

/-- `BufReader::new` on Windows — src/io/buffer.rs:42-48 over `Ring::new` (src/io/ring.rs:72-81). -/
def BufReader.winNew {σ : Type} (t : Target) (s : Win) (inner : σ) (capacity : Nat) :
    Exec (Win × Result (BufReader σ)) := do
  match ← s.ringNew t capacity with
  | (s, .error e) => return (s, .error e)
  | (s, .ok buf) => return (s, .ok { buf, inner, lowat := 0 })

/-- `BufWriter::new` on Windows — src/io/buffer.rs:231-233 over `Ring::new` (src/io/ring.rs:72-81). -/
def BufWriter.winNew {σ : Type} (t : Target) (s : Win) (inner : σ) (capacity : Nat) :
    Exec (Win × Result (BufWriter σ)) := do
  match ← s.ringNew t capacity with
  | (s, .error e) => return (s, .error e)
  | (s, .ok buf) => return (s, .ok (BufWriter.fromParts inner buf))

/-- `Drop for BufWriter` — src/io/buffer.rs:414-420 — as far as it calls the inner writer; the fields are
dropped after it, also while unwinding.  `k` is a memory of the process. -/
def BufWriter.lastFlush {σ : Type} (W : Writer σ) (t : Target) (fuel : Nat) (k : Kernel) (b : BufWriter σ) :
    Exec (σ × Out Unit) := do
  if b.panicked then return (b.inner, .ok ())
  else
    let (b, x) ← BufWriter.flushBuf W t k fuel b
    match x with
    | .pending => return (b.inner, .pending)
    | .unwound => return (b.inner, .unwound)
    | _ => return (b.inner, .ok ())

end Vmap
