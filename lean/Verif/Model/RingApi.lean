import Verif.Model.Ring
import Verif.Spec.Queue
/-
A driver that performs an arbitrary sequence of user calls on a ring.  Every call is the
model of the public method named in `Spec.RingOp`.
-/
namespace Vmap
open Spec (RingOp Resp)

/-- One call on a `Ring` — the methods of src/io/mod.rs:26-115 and src/io/ring.rs:86-176. -/
def Ring.exec (t : Target) (k : Kernel) (r : Ring) : RingOp → Exec ((Kernel × Ring) × Resp)
  | .write bs => do
    let (k, r, n) ← r.write t k bs
    return ((k, r), .num n)
  | .read n => do
    let (r, bs) ← r.read t k n
    return ((k, r), .bytes bs)
  | .consume n => do
    let r ← r.consume t n
    return ((k, r), .unit)
  | .feed n => do
    let r ← r.feed t n
    return ((k, r), .unit)
  | .poke bs => do
    let k ← poke t k r bs
    return ((k, r), .unit)
  | .clear => return ((k, r.clear), .unit)
  | .readSlice max => do
    let bs ← readSliceBytes t k r max
    return ((k, r), .bytes bs)
  | .writeSlice max => do
    let bs ← writeSliceBytes t k r max
    return ((k, r), .bytes bs)
  | .readLen => do
    let n ← r.readLen t
    return ((k, r), .num n)
  | .writeLen => do
    let n ← r.writeLen t
    return ((k, r), .num n)
  | .capacity => return ((k, r), .num (SeqWrite.writeCapacity r))
  | .isEmpty => do
    let b ← isEmpty t r
    return ((k, r), .flag b)
  | .isFull => do
    let b ← isFull t r
    return ((k, r), .flag b)

/-- A sequence of calls on a `Ring`.  Uses of src/io/ring.rs:65-175. -/
def Ring.execAll (t : Target) : Kernel → Ring → List RingOp → Exec ((Kernel × Ring) × List Resp)
  | k, r, [] => return ((k, r), [])
  | k, r, op :: ops => do
    let ((k, r), x) ← r.exec t k op
    let (s, xs) ← execAll t k r ops
    return (s, x :: xs)

/-- One call on an `InfiniteRing` — src/io/mod.rs:26-115 and src/io/ring.rs:245-336.
(`InfiniteRing` has no `clear`; a `clear` in the sequence does nothing.) -/
def InfiniteRing.exec (t : Target) (k : Kernel) (r : InfiniteRing) :
    RingOp → Exec ((Kernel × InfiniteRing) × Resp)
  | .write bs => do
    let (k, r, n) ← r.write t k bs
    return ((k, r), .num n)
  | .read n => do
    let (r, bs) ← r.read t k n
    return ((k, r), .bytes bs)
  | .consume n => do
    let r ← r.consume t n
    return ((k, r), .unit)
  | .feed n => do
    let r ← r.feed t n
    return ((k, r), .unit)
  | .poke bs => do
    let k ← poke t k r bs
    return ((k, r), .unit)
  | .clear => return ((k, r), .unit)
  | .readSlice max => do
    let bs ← readSliceBytes t k r max
    return ((k, r), .bytes bs)
  | .writeSlice max => do
    let bs ← writeSliceBytes t k r max
    return ((k, r), .bytes bs)
  | .readLen => do
    let n ← r.readLen t
    return ((k, r), .num n)
  | .writeLen => do
    let n ← r.writeLen t
    return ((k, r), .num n)
  | .capacity => return ((k, r), .num (SeqWrite.writeCapacity r))
  | .isEmpty => do
    let b ← isEmpty t r
    return ((k, r), .flag b)
  | .isFull => do
    let b ← isFull t r
    return ((k, r), .flag b)

/-- A sequence of calls on an `InfiniteRing`, `write_all` (src/io/ring.rs:303-313) included. -/
def InfiniteRing.execAll (t : Target) :
    Kernel → InfiniteRing → List Spec.InfOp → Exec ((Kernel × InfiniteRing) × List Resp)
  | k, r, [] => return ((k, r), [])
  | k, r, .call op :: ops => do
    let ((k, r), x) ← r.exec t k op
    let (s, xs) ← execAll t k r ops
    return (s, x :: xs)
  | k, r, .writeAll bs :: ops => do
    let (k, r) ← r.writeAll t k bs
    let (s, xs) ← execAll t k r ops
    return (s, .unit :: xs)

end Vmap
