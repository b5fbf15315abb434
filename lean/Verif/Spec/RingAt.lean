import Verif.Model.RingApi
import Verif.Spec.Kernel
/-
Reachable rings: what "every reachable ring state" means in C08–C14, C17, C18, C27, C71.
-/
namespace Vmap
open Spec Kernel

/-- The rest of the world (other code of the program, other processes, the kernel) does
anything at all, except touch the ring's own pages `[ptr, ptr+2*len)`: their page-table
entries (whether they are locked into memory apart) and the memory behind them stay as they are,
and nothing else gets to share that memory. -/
structure Kernel.Apart (t : Target) (k k' : Kernel) (ptr len : Nat) : Prop where
  page : k'.page = k.page
  pt : ∀ p e, ptr ≤ p * k.page → p * k.page < ptr + 2 * len → k.pt p = some e →
    ∃ l, k'.pt p = some { e with locked := l }
  data : ∀ p e, ptr ≤ p * k.page → p * k.page < ptr + 2 * len → k.pt p = some e →
    k'.data e.obj = k.data e.obj ∧ k'.size e.obj = k.size e.obj
  alone : ∀ p e, ptr ≤ p * k.page → p * k.page < ptr + 2 * len → k.pt p = some e →
    ∀ q e', k'.pt q = some e' → (e'.obj = e.obj ∨ e'.copy = some e.obj) →
      ptr ≤ q * k.page ∧ q * k.page < ptr + 2 * len
  wf : Wf t k'

/-- Only the pages of `[ptr, ptr+2*len)` have to do with object `o`. -/
def Owned (k : Kernel) (ptr len : Nat) (o : Obj) : Prop :=
  ∀ p e, k.pt p = some e → (e.obj = o ∨ e.copy = some o) →
    ptr ≤ p * k.page ∧ p * k.page < ptr + 2 * len

/-- `[ptr, ptr+2*len)` is a circular mapping of memory that is shown nowhere else. -/
def Kernel.Circular (t : Target) (k : Kernel) (ptr len : Nat) : Prop :=
  ∃ o, k.Mirror t ptr len o ∧ Owned k ptr len o

/-- Bytes appended since the last `clear`, after `op` on a ring with `w` bytes of write
space. -/
def passed (op : RingOp) (n w : Nat) : Nat :=
  match op with
  | .write bs => n + min bs.length w
  | .feed m => n + min m w
  | .clear => 0
  | _ => n

/-- `RingAt t k r n`: in kernel state `k` the program holds the ring `r`, obtained from
`Ring::new` by some sequence of calls, interleaved with arbitrary other activity; `n` bytes
were appended since the last `clear`, always fewer than `posBound`.  (`placed`: a new ring over a
circular mapping that was obtained in whatever way; for Windows and macOS, see C91 and C92.) -/
inductive RingAt (t : Target) : Kernel → Ring → Nat → Prop
  | new {k0 k : Kernel} {hint : Nat} {r : Ring} (wf : Wf t k0) (hint_lt : hint < t.lim)
      (made : Ring.new t k0 hint = .ok (k, .ok r)) : RingAt t k r 0
  | placed {k : Kernel} {r : Ring} (wf : Wf t k) (circular : k.Circular t r.ptr r.len)
      (rpos : r.rpos = 0) (wpos : r.wpos = 0) : RingAt t k r 0
  | call {k k' : Kernel} {r r' : Ring} {n w : Nat} {op : RingOp} {x : Resp}
      (before : RingAt t k r n) (space : r.writeLen t = .ok w)
      (below : passed op n w < posBound t (SeqWrite.writeCapacity r))
      (run : r.exec t k op = .ok ((k', r'), x)) : RingAt t k' r' (passed op n w)
  | other {k k' : Kernel} {r : Ring} {n : Nat} (before : RingAt t k r n)
      (apart : Apart t k k' r.ptr r.len) : RingAt t k' r n

/-- The same for an `InfiniteRing`; `FeedOk` excludes the `feed` arguments of the known
overflow (C24). -/
def FeedOk (len : Nat) : RingOp → Prop
  | .feed n => len + n < lim64
  | _ => True

/-- `InfAt t k r n`: as `RingAt`, for an `InfiniteRing`. -/
inductive InfAt (t : Target) : Kernel → InfiniteRing → Nat → Prop
  | new {k0 k : Kernel} {hint : Nat} {r : InfiniteRing} (wf : Wf t k0) (hint_lt : hint < t.lim)
      (made : InfiniteRing.new t k0 hint = .ok (k, .ok r)) : InfAt t k r 0
  | placed {k : Kernel} {r : InfiniteRing} (wf : Wf t k) (circular : k.Circular t r.ptr r.len)
      (rlen : r.rlen = 0) (wpos : r.wpos = 0) : InfAt t k r 0
  | call {k k' : Kernel} {r r' : InfiniteRing} {n w : Nat} {op : RingOp} {x : Resp}
      (before : InfAt t k r n) (space : r.writeLen t = .ok w) (noClear : op ≠ .clear)
      (below : passed op n w < posBound t (SeqWrite.writeCapacity r))
      (feed : FeedOk (SeqWrite.writeCapacity r) op)
      (run : r.exec t k op = .ok ((k', r'), x)) : InfAt t k' r' (passed op n w)
  | all {k k' : Kernel} {r r' : InfiniteRing} {n : Nat} {bs : List Byte}
      (before : InfAt t k r n)
      (below : n + min bs.length (SeqWrite.writeCapacity r) <
        posBound t (SeqWrite.writeCapacity r))
      (run : r.writeAll t k bs = .ok (k', r')) :
      InfAt t k' r' (n + min bs.length (SeqWrite.writeCapacity r))
  | other {k k' : Kernel} {r : InfiniteRing} {n : Nat} (before : InfAt t k r n)
      (apart : Apart t k k' r.ptr r.len) : InfAt t k' r n

/-- Address `b` holds different memory than address `a`: no store to `a` can be seen at `b`. -/
def Kernel.Separate (k : Kernel) (a b : Nat) : Prop :=
  ∀ v k', k.store a v = .ok k' → k'.load b = k.load b

/-- Address `a` can be loaded and stored. -/
def Kernel.Usable (k : Kernel) (a : Nat) : Prop :=
  (∃ b, k.load a = .ok b) ∧ ∀ v, ∃ k', k.store a v = .ok k' ∧ k'.load a = .ok v

end Vmap
