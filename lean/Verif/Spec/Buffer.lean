import Verif.Model.Buffer
/-
Specifications for C53–C67: what the inner reader/writer was asked and what it did (a spy
around an arbitrary inner object), and drivers for arbitrary histories of calls.
-/
namespace Vmap

/-! ### Watching the inner reader -/

/-- One call of the inner reader: the contents of the slice it was offered, and what it did. -/
structure ReadEvent where
  offered : List Byte
  resp : ReadResp
  deriving DecidableEq, Repr

/-- The bytes that the caller of the inner `read` received: the first `n` bytes of the slice
after the call (a count beyond the slice cannot yield more than the slice). -/
def ReadEvent.bytes (e : ReadEvent) : List Byte :=
  match e.resp with
  | .ok n stored => (stored.take e.offered.length ++ e.offered.drop stored.length).take n
  | .err _ _ => []
  | .panic _ => []

/-- The same reader, which in addition notes down every call. -/
def Reader.spy {σ : Type} (R : Reader σ) : Reader (σ × List ReadEvent) where
  read s offered :=
    let (s', r) := R.read s.1 offered
    ((s', s.2 ++ [⟨offered, r⟩]), r)

/-- All bytes taken from the inner reader, in order. -/
def taken (log : List ReadEvent) : List Byte := (log.map ReadEvent.bytes).flatten

/-- A reader that reports at most what it was offered room for. -/
def Reader.Honest {σ : Type} (R : Reader σ) : Prop :=
  ∀ s offered, match (R.read s offered).2 with
    | .ok n _ => n ≤ offered.length
    | _ => True

/-- Calls on a `BufReader`. -/
inductive RdOp
  /-- `read` into a destination with contents `dst` -/
  | read (dst : List Byte)
  | fillBuf
  | consume (n : Nat)
  | setLowat (n : Nat)
  deriving DecidableEq, Repr

/-- Result of a call on a `BufReader`. -/
inductive RdResp
  | read (dst : List Byte) (x : Out Nat)
  | fill (x : Out (List Byte))
  | unit
  deriving DecidableEq, Repr

/-- The bytes a call hands out: what `read` stored, and what `consume` removed from `buffer()`. -/
def handed (q : List Byte) : RdOp → RdResp → List Byte
  | .read _, .read dst (.ok n) => dst.take n
  | .consume n, _ => q.take n
  | _, _ => []

/-- One call; the result comes with the bytes handed out by it. -/
def BufReader.exec {σ : Type} (R : Reader σ) (t : Target) (k : Kernel) (b : BufReader σ)
    (op : RdOp) : Exec ((Kernel × BufReader σ) × RdResp × List Byte) := do
  let q ← b.buffer t k
  match op with
  | .read dst => do
    let (k, b, d, x) ← b.read R t k dst
    return ((k, b), .read d x, handed q op (.read d x))
  | .fillBuf => do
    let (k, b, x) ← b.fillBuf R t k
    return ((k, b), .fill x, handed q op (.fill x))
  | .consume n => do
    let b ← b.consume t n
    return ((k, b), .unit, handed q op .unit)
  | .setLowat n => return ((k, b.setLowat n), .unit, handed q op .unit)

/-- Any sequence of calls; the bytes handed out by all of them. -/
def BufReader.execAll {σ : Type} (R : Reader σ) (t : Target) :
    Kernel → BufReader σ → List RdOp → Exec ((Kernel × BufReader σ) × List Byte)
  | k, b, [] => return ((k, b), [])
  | k, b, op :: ops => do
    let ((k, b), _, h) ← b.exec R t k op
    let (s, hs) ← execAll R t k b ops
    return (s, h ++ hs)

/-! ### Watching the inner writer -/

/-- One call of the inner writer. -/
inductive WriteEvent
  | write (data : List Byte) (resp : WriteResp)
  | flush (resp : FlushResp)
  deriving DecidableEq, Repr

/-- The bytes the inner writer accepted in a call. -/
def WriteEvent.bytes : WriteEvent → List Byte
  | .write data (.ok n) => data.take n
  | _ => []

/-- The same writer, which in addition notes down every call. -/
def Writer.spy {σ : Type} (W : Writer σ) : Writer (σ × List WriteEvent) where
  write s data :=
    let (s', r) := W.write s.1 data
    ((s', s.2 ++ [.write data r]), r)
  flush s :=
    let (s', r) := W.flush s.1
    ((s', s.2 ++ [.flush r]), r)

/-- All bytes the inner writer accepted, in order. -/
def received (log : List WriteEvent) : List Byte := (log.map WriteEvent.bytes).flatten

/-- The result of the most recent call of the inner `write`. -/
def lastWrite (log : List WriteEvent) : Option WriteResp :=
  log.foldl (fun acc e => match e with
    | .write _ r => some r
    | .flush _ => acc) none

/-- The inner writer is offered everything that is left, again and again; it accepts a positive
number of bytes (reporting more than offered counts as all) or says `Interrupted`.  From `q`
left before, the calls `ev` lead to `q'` left. -/
inductive Drains : List Byte → List WriteEvent → List Byte → Prop
  | stop (q : List Byte) : Drains q [] q
  | took {q q' : List Byte} {ev : List WriteEvent} (n : Nat) (pos : n ≠ 0) (left : q ≠ [])
      (rest : Drains (q.drop n) ev q') : Drains q (.write q (.ok n) :: ev) q'
  | again {q q' : List Byte} {ev : List WriteEvent} (e : IoError)
      (intr : e.kind = .interrupted) (left : q ≠ []) (rest : Drains q ev q') :
      Drains q (.write q (.err e) :: ev) q'

/-- How a flush of the buffer ends when it stops at the answer `r` of the inner writer. -/
def stopsWith : WriteResp → Out Unit → Prop
  | .ok n, x => n = 0 ∧ x = .err (.ofKind .writeZero)
  | .err e, x => e.kind ≠ .interrupted ∧ x = .err e
  | .panic, x => x = .unwound

/-- A flush of the buffer: the calls made on the inner writer, what is left, and the result. -/
inductive Flush (fuel : Nat) (q : List Byte) : List WriteEvent → List Byte → Out Unit → Prop
  | done {ev : List WriteEvent} (all : Drains q ev []) : Flush fuel q ev [] (.ok ())
  | stopped {ev : List WriteEvent} {q' : List Byte} {x : Out Unit} (r : WriteResp)
      (part : Drains q ev q') (left : q' ≠ []) (why : stopsWith r x) :
      Flush fuel q (ev ++ [.write q' r]) q' x
  | running {ev : List WriteEvent} {q' : List Byte} (part : Drains q ev q')
      (all : ev.length = fuel) : Flush fuel q ev q' .pending

/-- Number of calls answered with an error. -/
def refused (ev : List WriteEvent) : Nat :=
  (ev.filter fun e => match e with | .write _ (.err _) => true | _ => false).length

/-- Calls on a `BufWriter`. -/
inductive WrOp
  | write (data : List Byte)
  | flush
  deriving DecidableEq, Repr

/-- The bytes of `op` that the result `x` says were accepted. -/
def WrOp.accepted : WrOp → Out Nat → List Byte
  | .write data, .ok n => data.take n
  | _, _ => []

/-- One call (a successful `flush` is reported as `ok 0`). -/
def BufWriter.exec {σ : Type} (W : Writer σ) (t : Target) (fuel : Nat) (k : Kernel)
    (b : BufWriter σ) : WrOp → Exec ((Kernel × BufWriter σ) × Out Nat)
  | .write data => do
    let (k, b, x) ← b.write W t fuel k data
    return ((k, b), x)
  | .flush => do
    let (b, x) ← b.flush W t fuel k
    return ((k, b), match x with
      | .ok () => .ok 0
      | .err e => .err e
      | .unwound => .unwound
      | .pending => .pending)

/-- Any sequence of calls; a call that is still running is the last one.  Also returns the
accepted bytes of all calls. -/
def BufWriter.execAll {σ : Type} (W : Writer σ) (t : Target) (fuel : Nat) :
    Kernel → BufWriter σ → List WrOp → Exec ((Kernel × BufWriter σ) × List Byte)
  | k, b, [] => return ((k, b), [])
  | k, b, op :: ops => do
    let ((k, b), x) ← b.exec W t fuel k op
    if x = .pending then return ((k, b), [])
    else
      let (s, acc) ← execAll W t fuel k b ops
      return (s, op.accepted x ++ acc)

/-- No write of the history exactly fills the write space while something is buffered — the one
case in which the order breaks (C58). -/
def BufWriter.NoExactFit {σ : Type} (W : Writer σ) (t : Target) (fuel : Nat) :
    Kernel → BufWriter σ → List WrOp → Prop
  | _, _, [] => True
  | k, b, op :: ops =>
    (∀ data q w, op = .write data → b.buffered t k = .ok q → b.buf.writeLen t = .ok w →
      data.length = w → q = []) ∧
    (∀ k' b' x, b.exec W t fuel k op = .ok ((k', b'), x) → NoExactFit W t fuel k' b' ops)

end Vmap
