import Verif.Model.Doc
import Verif.Model.WinBuffer
import Verif.Model.WindowsMap
/-
The example programs of the documentation of rings and buffered writers on Windows.  What happens
between making a ring and dropping it runs in a memory of the process: `mem s` is the memory of a process
in state `s` (any function that is right, see Spec/WinDoc).  Simplification: what the programs leave in
the memory of a ring is not recorded in `s`; nobody looks at it before the ring is gone.
-/
namespace Vmap

/-- `Drop for BufWriter` on Windows — src/io/buffer.rs:414-420, then the ring of the fields:
src/io/ring.rs:92-96.  A flush that is still running has not come to the ring. -/
def BufWriter.winDrop {σ : Type} (W : Writer σ) (t : Target) (fuel : Nat) (s : Win) (k : Kernel) (b : BufWriter σ) :
    Exec (Win × σ × Out Unit) := do
  match ← b.lastFlush W t fuel k with
  | (inner, .pending) => return (s, inner, .pending)
  | (inner, x) => return (s.dropRing t b.buf, inner, x)

/-- `BufWriter::into_inner` on Windows — src/io/buffer.rs:301-306; as `BufWriter.intoInner`. -/
def BufWriter.winIntoInner {σ : Type} (W : Writer σ) (t : Target) (fuel : Nat) (s : Win) (k : Kernel)
    (b : BufWriter σ) : Exec (Win × BufWriter.Inner σ) := do
  let (b, x) ← b.flushBuf W t k fuel
  match x with
  | .err e => return (s, .err b e)
  | .ok () =>
    let (inner, _, buf) := b.intoParts
    return (s.dropRing t buf, .ok inner)
  | .unwound =>
    let (s, inner, _) ← b.winDrop W t fuel s k
    return (s, .unwound inner)
  | .pending => return (s, .pending b)

namespace Doc

/-- The ring example on Windows — src/lib.rs:101-128 and src/io/ring.rs:28-55. -/
def winRing (t : Target) (valid : List Byte → Bool) (fuel : Nat) (mem : Win → Kernel) (s : Win) :
    Exec (Option (Win × IoResult Unit)) := do
  match ← s.ringNew t 4000 with
  | (_, .error _) => .error .panic
  | (s, .ok r) =>
    match ← ringBody t valid fuel (mem s) r with
    | none => return none
    | some ((_, r), x) => return some (s.dropRing t r, x)

/-- The infinite ring example on Windows — src/io/ring.rs:196-216. -/
def winInfinite (t : Target) (valid : List Byte → Bool) (fuel : Nat) (mem : Win → Kernel) (s : Win) :
    Exec (Option (Win × IoResult Unit)) := do
  match ← s.infNew t 4000 with
  | (_, .error _) => .error .panic
  | (s, .ok r) =>
    match ← infiniteBody t valid fuel (mem s) r with
    | none => return none
    | some ((_, r), x) => return some (s.dropInf t r, x)

/-- The example of `into_inner` on Windows — src/io/buffer.rs:281-298; as `Doc.recover`. -/
def winRecover (t : Target) (fuel : Nat) (mem : Win → Kernel) (s : Win) (kind : IoKind)
    (limit capacity : Nat) (text rest : List Byte) : Exec (Win × End Nat) := do
  match ← BufWriter.winNew t s limit capacity with
  | (s, .error e) => return (s, .create e)
  | (s, .ok b) =>
    match ← b.writeAll (erring kind) t fuel fuel (mem s) text with
    | (k, b, _, .ok ()) =>
      match ← b.winIntoInner (erring kind) t fuel s k with
      | (s, .ok inner) => return (s, .ok inner)
      | (s, .err b e) =>
        assert (e.kind = kind)
        match b.intoParts with
        | (_, true, _) => .error .panic
        | (inner, false, ring) =>
          let got ← readSliceBytes t k ring t.usizeMax
          assert (got = rest)
          return (s.dropRing t ring, .ok inner)
      | (_, .unwound _) => .error .panic
      | (s, .pending _) => return (s, .write .pending)
    | (k, b, _, x) =>
      let (s, _, _) ← b.winDrop (erring kind) t fuel s k
      return (s, .write x)

/-- The example of `into_parts` on Windows — src/io/buffer.rs:328-338; as `Doc.unwind`. -/
def winUnwind (t : Target) (fuel : Nat) (mem : Win → Kernel) (s : Win) (capacity : Nat) (text : List Byte) :
    Exec (Win × End Unit) := do
  match ← BufWriter.winNew t s () capacity with
  | (s, .error e) => return (s, .create e)
  | (s, .ok b) =>
    match ← b.writeAll panicking t fuel fuel (mem s) text with
    | (k, b, _, .ok ()) =>
      let (b, x) ← b.flush panicking t fuel k
      assert (match x with | .unwound => true | .err _ => true | _ => false)
      match b.intoParts with
      | (_, false, _) => .error .panic
      | (inner, true, ring) =>
        let got ← readSliceBytes t k ring t.usizeMax
        assert (got = text)
        return (s.dropRing t ring, .ok inner)
    | (k, b, _, x) =>
      let (s, _, _) ← b.winDrop panicking t fuel s k
      return (s, .write x)

/-- The example of `BufWriter` on Windows — src/io/buffer.rs:211-218; as `Doc.relay`. -/
def winRelay (t : Target) (fuel : Nat) (mem : Win → Kernel) (s : Win) (valid : List Byte → Bool)
    (take take' : Nat → Nat) (capacity : Nat) (text line : List Byte) : Exec (Win × End (Out Nat)) := do
  match ← BufWriter.winNew t s (0, []) capacity with
  | (_, .error _) => .error .panic
  | (s, .ok wr) =>
    match ← wr.writeAll (sender take) t fuel fuel (mem s) text with
    | (k, wr, _, .ok ()) =>
      match ← wr.flush (sender take) t fuel k with
      | (wr, .ok ()) =>
        match ← BufReader.winNew t s (0, wr.inner.2) capacity with
        | (_, .error _) => .error .panic
        | (s, .ok rd) =>
          let (_, _, got, x) ← rd.readLine (receiver take') t valid fuel (mem s) []
          match x with
          | .ok n =>
            assert (got = line)
            return (s, .ok (.ok n))
          | x => return (s, .ok x)
      | (_, x) => return (s, .write x)
    | (_, _, _, x) => return (s, .write x)

end Doc
end Vmap
