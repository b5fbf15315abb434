import Verif.Model.BufferStd
import Verif.Spec.Buffer
/- Specifications for C83–C88: buffered readers and writers in use. -/
namespace Vmap

/-- Number of calls of the inner reader answered with `Interrupted`. -/
def interrupts (ev : List ReadEvent) : Nat :=
  (ev.filter fun e => match e.resp with
    | .err e _ => decide (e.kind = .interrupted)
    | _ => false).length

/-- The inner reader's last answer: end of file, although there was room. -/
def SaidEof (ev : List ReadEvent) : Prop :=
  ∃ before e stored, ev = before ++ [e] ∧ e.offered ≠ [] ∧ e.resp = .ok 0 stored

/-- The inner reader's last answer was the error `e`, which is not `Interrupted`. -/
def SaidErr (ev : List ReadEvent) (e : IoError) : Prop :=
  e.kind ≠ .interrupted ∧ ∃ before x stored, ev = before ++ [x] ∧ x.resp = .err e stored

/-- The inner reader panicked in its last call. -/
def SaidPanic (ev : List ReadEvent) : Prop :=
  ∃ before x stored, ev = before ++ [x] ∧ x.resp = .panic stored

/-- A writer that reports at most what it was offered. -/
def Writer.Honest {σ : Type} (W : Writer σ) : Prop :=
  ∀ s data, match (W.write s data).2 with
    | .ok n => n ≤ data.length
    | _ => True

/-- The error `e` is the inner writer's last answer, or `WriteZero` and the inner writer accepted
nothing of what it was last offered. -/
def WriteFailed (ev : List WriteEvent) (e : IoError) : Prop :=
  ∃ before data, data ≠ [] ∧
    ((e = .ofKind .writeZero ∧ ev = before ++ [.write data (.ok 0)]) ∨
     (e.kind ≠ .interrupted ∧ ev = before ++ [.write data (.err e)]))

/-- The inner writer panicked in its last call. -/
def WritePanicked (ev : List WriteEvent) : Prop :=
  ∃ before data, ev = before ++ [.write data .panic]

/-! ### An inner object that both reads and writes -/

/-- The reader, on the first half of the state. -/
def Reader.onFst {σ τ : Type} (R : Reader σ) : Reader (σ × τ) where
  read s offered :=
    let (s', r) := R.read s.1 offered
    ((s', s.2), r)

/-- The writer, on the first half of the state. -/
def Writer.onFst {σ τ : Type} (W : Writer σ) : Writer (σ × τ) where
  write s data :=
    let (s', r) := W.write s.1 data
    ((s', s.2), r)
  flush s :=
    let (s', r) := W.flush s.1
    ((s', s.2), r)

/-- An inner object that reads and writes, with a list of the writes and one of the reads made on it. -/
abbrev Duplex (σ : Type) := (σ × List WriteEvent) × List ReadEvent

/-- Calls on a `BufReader` whose inner object can also be written to. -/
inductive DxOp (σ : Type)
  | rd (op : RdOp)
  /-- `BufReader::write` -/
  | write (data : List Byte)
  /-- `BufReader::flush` -/
  | flush
  /-- anything else done to the inner object through `get_mut`, `DerefMut`, `AsMut` or one of the
  other methods that are passed on -/
  | inner (f : σ → σ)

/-- One call: the bytes it handed out, and for a write or flush what was asked and answered. -/
def BufReader.execDx {σ : Type} (R : Reader σ) (W : Writer σ) (t : Target) (k : Kernel)
    (b : BufReader (Duplex σ)) :
    DxOp σ → Exec ((Kernel × BufReader (Duplex σ)) × List Byte × List WriteEvent)
  | .rd op => do
    let (s, _, out) ← b.exec R.onFst.spy t k op
    return (s, out, [])
  | .write data => do
    let (b, r) := b.write W.spy.onFst data
    return ((k, b), [], [.write data r])
  | .flush => do
    let (b, r) := b.flush W.spy.onFst
    return ((k, b), [], [.flush r])
  | .inner f => do
    let (b, _) := b.through (fun s => (((f s.1.1, s.1.2), s.2), ()))
    return ((k, b), [], [])

/-- Any sequence of calls. -/
def BufReader.execDxAll {σ : Type} (R : Reader σ) (W : Writer σ) (t : Target) :
    Kernel → BufReader (Duplex σ) → List (DxOp σ) →
    Exec ((Kernel × BufReader (Duplex σ)) × List Byte × List WriteEvent)
  | k, b, [] => return ((k, b), [], [])
  | k, b, op :: ops => do
    let ((k, b), o, a) ← b.execDx R W t k op
    let (s, os, as) ← execDxAll R W t k b ops
    return (s, o ++ os, a ++ as)

/-- What the calls ask to be written or flushed, in order. -/
def DxOp.asked {σ : Type} : DxOp σ → List WrOp
  | .write data => [.write data]
  | .flush => [.flush]
  | _ => []

/-- What a call of the inner writer asked. -/
def WriteEvent.asked : WriteEvent → WrOp
  | .write data _ => .write data
  | .flush _ => .flush

/-- Calls on a `BufWriter` whose inner object can also be read from. -/
inductive DxwOp (σ : Type)
  | wr (op : WrOp)
  /-- `BufWriter::read` -/
  | read (dst : List Byte)
  /-- anything else done to the inner object through `get_mut`, `DerefMut`, `AsMut` or one of the
  other methods that are passed on -/
  | inner (f : σ → σ)

/-- An inner object that reads and writes, the other way around. -/
abbrev DuplexW (σ : Type) := (σ × List ReadEvent) × List WriteEvent

/-- One call: the result of a write or flush, and for a read what was offered and answered. -/
def BufWriter.execDx {σ : Type} (R : Reader σ) (W : Writer σ) (t : Target) (fuel : Nat) (k : Kernel)
    (b : BufWriter (DuplexW σ)) :
    DxwOp σ → Exec ((Kernel × BufWriter (DuplexW σ)) × Option (Out Nat) × List ReadEvent)
  | .wr op => do
    let (s, x) ← b.exec W.onFst.spy t fuel k op
    return (s, some x, [])
  | .read dst => do
    let (b, r) := b.read R.spy.onFst dst
    return ((k, b), none, [⟨dst, r⟩])
  | .inner f => do
    let (b, _) := b.through (fun s => (((f s.1.1, s.1.2), s.2), ()))
    return ((k, b), none, [])

/-! ### Retrying `into_inner` -/

/-- Call `into_inner`; on an error call it again on the writer inside the error, and so on, up to
`tries` times.  The last component counts the errors met. -/
def BufWriter.retry {σ : Type} (W : Writer σ) (t : Target) (fuel : Nat) :
    Nat → Kernel → BufWriter σ → Exec (Kernel × Except (BufWriter σ) (Out σ) × Nat)
  | 0, k, b => return (k, .error b, 0)
  | tries + 1, k, b => do
    match ← b.tryInto W t fuel k with
    | (k, .ok x) => return (k, .ok x, 0)
    | (k, .error err) => do
      let (k, r, n) ← retry W t fuel tries k err.intoInner
      return (k, r, n + 1)

end Vmap
