import Verif.Model.Kernel
/-
Specifications for C07–C14, C16–C24: byte queues on plain lists.  No machine integers, no
addresses, no kernel.
-/
namespace Vmap

/-- Byte count below which a ring's position arithmetic is exact: a ring whose capacity divides
2^usize-bits may carry 2^64 bytes; otherwise `usize` limits it. -/
def posBound (t : Target) (len : Nat) : Nat := if len ∣ t.lim then lim64 else t.lim

namespace Spec

/-- Calls that a user can make on a `Ring` or `InfiniteRing` (the `SeqRead`, `SeqWrite`,
`Read`, `Write`, `BufRead` API). -/
inductive RingOp
  /-- `Write::write(buf)` -/
  | write (bs : List Byte)
  /-- `Read::read` into a destination of `n` bytes -/
  | read (n : Nat)
  /-- `BufRead::consume(n)` -/
  | consume (n : Nat)
  /-- `SeqWrite::feed(n)` -/
  | feed (n : Nat)
  /-- store `bs` at the front of `as_write_slice(usize::MAX)`, as much as it has room for -/
  | poke (bs : List Byte)
  /-- `Ring::clear()` -/
  | clear
  /-- look at `as_read_slice(max)` (for `max = usize::MAX`: `fill_buf`, `deref`, `as_ref`) -/
  | readSlice (max : Nat)
  /-- look at `as_write_slice(max)` -/
  | writeSlice (max : Nat)
  | readLen
  | writeLen
  | capacity
  | isEmpty
  | isFull
  deriving DecidableEq, Repr

/-- What a call returns. -/
inductive Resp
  | unit
  | num (n : Nat)
  | bytes (bs : List Byte)
  | flag (b : Bool)
  deriving DecidableEq, Repr

/-! ### A bounded FIFO queue (C07) -/

/-- The plain bounded FIFO queue of capacity `cap`, for the calls that do not expose or use the
raw write slice. `none`: not a FIFO call. -/
def fifoStep (cap : Nat) (q : List Byte) : RingOp → Option (List Byte × Resp)
  | .write bs =>
    let n := min bs.length (cap - q.length)
    some (q ++ bs.take n, .num n)
  | .read n => some (q.drop n, .bytes (q.take n))
  | .consume n => some (q.drop n, .unit)
  | .clear => some ([], .unit)
  | .readSlice max => some (q, .bytes (q.take max))
  | .readLen => some (q, .num q.length)
  | .writeLen => some (q, .num (cap - q.length))
  | .capacity => some (q, .num cap)
  | .isEmpty => some (q, .flag (q == []))
  | .isFull => some (q, .flag (q.length == cap))
  | .feed _ => none
  | .poke _ => none
  | .writeSlice _ => none

/-- A history of FIFO calls: final contents and all responses. -/
def fifoRun (cap : Nat) : List Byte → List RingOp → Option (List Byte × List Resp)
  | q, [] => some (q, [])
  | q, op :: ops => do
    let (q, r) ← fifoStep cap q op
    let (q, rs) ← fifoRun cap q ops
    return (q, r :: rs)

/-- Bytes that an op adds to a FIFO of capacity `cap` holding `q`. -/
def fifoAdded (cap : Nat) (q : List Byte) : RingOp → Nat
  | .write bs => min bs.length (cap - q.length)
  | _ => 0

/-- `total` plus the bytes added since the last `clear` stays below `bound` throughout. -/
def fifoBelow (bound cap : Nat) : Nat → List Byte → List RingOp → Prop
  | _, _, [] => True
  | total, q, op :: ops =>
    let total' := if op = .clear then 0 else total + fifoAdded cap q op
    total' < bound ∧
      match fifoStep cap q op with
      | some (q', _) => fifoBelow bound cap total' q' ops
      | none => True

/-! ### The queue together with its write slice (C10–C13) -/

/-- Readable bytes `q`, the bytes currently lying in the write slice `spare`, and the number
of bytes appended since the last `clear`. -/
structure Win where
  spare : List Byte
  q : List Byte
  total : Nat
  deriving DecidableEq, Repr

/-- The whole memory, read in the order: write slice, then readable bytes. -/
def Win.all (s : Win) : List Byte := s.spare ++ s.q

/-- Move the first `n` elements to the end. -/
def rotate (n : Nat) (l : List Byte) : List Byte := l.drop n ++ l.take n

/-- One call on a ring, with the write slice in view:
* `write`/`feed` move bytes from the front of the write slice to the end of the queue (having
  replaced them by the argument, for `write`);
* `read`/`consume` free the oldest bytes, which become the end of the write slice;
* `poke` changes the write slice only;
* `clear` keeps every byte of memory, and starts again at the position where the
  ring was `total` bytes ago. -/
def Win.step (s : Win) : RingOp → Win × Resp
  | .write bs =>
    let n := min bs.length s.spare.length
    (⟨s.spare.drop n, s.q ++ bs.take n, s.total + n⟩, .num n)
  | .read n => (⟨s.spare ++ s.q.take n, s.q.drop n, s.total⟩, .bytes (s.q.take n))
  | .consume n => (⟨s.spare ++ s.q.take n, s.q.drop n, s.total⟩, .unit)
  | .feed n =>
    (⟨s.spare.drop n, s.q ++ s.spare.take n, s.total + min n s.spare.length⟩, .unit)
  | .poke bs =>
    (⟨bs.take s.spare.length ++ s.spare.drop bs.length, s.q, s.total⟩, .unit)
  | .clear =>
    let cap := s.all.length
    (⟨rotate (cap - s.total % cap) s.all, [], 0⟩, .unit)
  | .readSlice max => (s, .bytes (s.q.take max))
  | .writeSlice max => (s, .bytes (s.spare.take max))
  | .readLen => (s, .num s.q.length)
  | .writeLen => (s, .num s.spare.length)
  | .capacity => (s, .num s.all.length)
  | .isEmpty => (s, .flag (s.q == []))
  | .isFull => (s, .flag (s.spare == []))

/-- A history of calls. -/
def Win.run (s : Win) : List RingOp → Win × List Resp
  | [] => (s, [])
  | op :: ops =>
    let (s', r) := s.step op
    let (s'', rs) := s'.run ops
    (s'', r :: rs)

/-- The byte count stays below `bound` throughout the history. -/
def Win.below (bound : Nat) (s : Win) : List RingOp → Prop
  | [] => True
  | op :: ops => (s.step op).1.total < bound ∧ (s.step op).1.below bound ops

/-! ### A lossy queue (C19–C24) -/

/-- The last `n` elements. -/
def lastN (n : Nat) (l : List Byte) : List Byte := l.drop (l.length - n)

/-- `old` are the bytes no longer (or not yet) readable, oldest first, `q` the readable ones;
`write` and `feed` always have the whole capacity available, evicting what is oldest. -/
structure Lossy where
  old : List Byte
  q : List Byte
  total : Nat
  deriving DecidableEq, Repr

def Lossy.all (s : Lossy) : List Byte := s.old ++ s.q

/-- Append `bs` (at most the capacity): the oldest `|bs|` bytes of memory are replaced, the
readable bytes are the most recent ones of (readable before ++ `bs`). -/
def Lossy.append (s : Lossy) (bs : List Byte) : Lossy :=
  let cap := s.all.length
  let all := lastN cap (s.all ++ bs)
  let n := min (s.q.length + bs.length) cap
  ⟨all.take (cap - n), all.drop (cap - n), s.total + bs.length⟩

/-- One call on an infinite ring. (`clear` is not offered.) -/
def Lossy.step (s : Lossy) : RingOp → Lossy × Resp
  | .write bs =>
    let n := min bs.length s.all.length
    (s.append (bs.take n), .num n)
  | .read n => (⟨s.old ++ s.q.take n, s.q.drop n, s.total⟩, .bytes (s.q.take n))
  | .consume n => (⟨s.old ++ s.q.take n, s.q.drop n, s.total⟩, .unit)
  | .feed n => (s.append (s.all.take n), .unit)
  | .poke bs =>
    let all := bs.take s.all.length ++ s.all.drop bs.length
    (⟨all.take s.old.length, all.drop s.old.length, s.total⟩, .unit)
  | .clear => (s, .unit)
  | .readSlice max => (s, .bytes (s.q.take max))
  | .writeSlice max => (s, .bytes (s.all.take max))
  | .readLen => (s, .num s.q.length)
  | .writeLen => (s, .num s.all.length)
  | .capacity => (s, .num s.all.length)
  | .isEmpty => (s, .flag (s.q == []))
  | .isFull => (s, .flag (s.all == []))

/-- The plain lossy queue: append, keep the last `cap` bytes. -/
def lossyStep (cap : Nat) (q : List Byte) : RingOp → Option (List Byte × Resp)
  | .write bs =>
    let n := min bs.length cap
    some (lastN cap (q ++ bs.take n), .num n)
  | .read n => some (q.drop n, .bytes (q.take n))
  | .consume n => some (q.drop n, .unit)
  | .readSlice max => some (q, .bytes (q.take max))
  | .readLen => some (q, .num q.length)
  | .writeLen => some (q, .num cap)
  | .capacity => some (q, .num cap)
  | .isEmpty => some (q, .flag (q == []))
  | .isFull => some (q, .flag (cap == 0))
  | .clear => none
  | .feed _ => none
  | .poke _ => none
  | .writeSlice _ => none

/-- Calls on an infinite ring: those of `RingOp`, and `write_all(buf)`. -/
inductive InfOp
  | call (op : RingOp)
  | writeAll (bs : List Byte)
  deriving DecidableEq, Repr

/-- A history of calls on the plain lossy queue; `write_all` appends everything. -/
def lossyRun (cap : Nat) : List Byte → List InfOp → Option (List Byte × List Resp)
  | q, [] => some (q, [])
  | q, .call op :: ops => do
    let (q, r) ← lossyStep cap q op
    let (q, rs) ← lossyRun cap q ops
    return (q, r :: rs)
  | q, .writeAll bs :: ops => do
    let (q, rs) ← lossyRun cap (lastN cap (q ++ bs)) ops
    return (q, .unit :: rs)

/-- Number of bytes stored by a history of lossy calls. -/
def lossyTraffic (cap : Nat) : List InfOp → Nat
  | [] => 0
  | .call (.write bs) :: ops => min bs.length cap + lossyTraffic cap ops
  | .writeAll bs :: ops => min bs.length cap + lossyTraffic cap ops
  | _ :: ops => lossyTraffic cap ops

end Spec
end Vmap
