import Verif.Spec.RingAt
import Verif.Spec.Buffer
/-
Specification for C156: two runs of the same calls, each on a machine of its own.
-/
namespace Vmap
open Spec Kernel

/-- A run of the calls `ops` on a ring, answered by `xs`, with arbitrary other activity before,
between and after them (`other`, see `Kernel.Apart`).  `n`: bytes appended since the last
`clear`, as in `RingAt`. -/
inductive RingAnswers (t : Target) :
    Kernel → Ring → Nat → List RingOp → List Resp → Kernel → Ring → Nat → Prop
  | done (k : Kernel) (r : Ring) (n : Nat) : RingAnswers t k r n [] [] k r n
  | call {k k1 k2 : Kernel} {r r1 r2 : Ring} {n n2 w : Nat} {op : RingOp} {x : Resp}
      {ops : List RingOp} {xs : List Resp} (space : r.writeLen t = .ok w)
      (below : passed op n w < posBound t (SeqWrite.writeCapacity r))
      (run : r.exec t k op = .ok ((k1, r1), x))
      (rest : RingAnswers t k1 r1 (passed op n w) ops xs k2 r2 n2) :
      RingAnswers t k r n (op :: ops) (x :: xs) k2 r2 n2
  | other {k k1 k2 : Kernel} {r r2 : Ring} {n n2 : Nat} {ops : List RingOp} {xs : List Resp}
      (apart : Apart t k k1 r.ptr r.len) (rest : RingAnswers t k1 r n ops xs k2 r2 n2) :
      RingAnswers t k r n ops xs k2 r2 n2

/-- Two rings that a program cannot tell apart: the same readable bytes, the same bytes in the
write slice, and the write position at the same place within the capacity (that place is what
`clear` goes back from). -/
structure SameRing (t1 : Target) (k1 : Kernel) (r1 : Ring) (n1 : Nat)
    (t2 : Target) (k2 : Kernel) (r2 : Ring) (n2 : Nat) : Prop where
  first : RingAt t1 k1 r1 n1
  second : RingAt t2 k2 r2 n2
  readable : r1.fillBuf t1 k1 = r2.fillBuf t2 k2
  writable : writeSliceBytes t1 k1 r1 t1.usizeMax = writeSliceBytes t2 k2 r2 t2.usizeMax
  place : n1 % SeqWrite.writeCapacity r1 = n2 % SeqWrite.writeCapacity r2

/-- As `RingAnswers`, for an `InfiniteRing`. -/
inductive InfAnswers (t : Target) :
    Kernel → InfiniteRing → Nat → List InfOp → List Resp → Kernel → InfiniteRing → Nat → Prop
  | done (k : Kernel) (r : InfiniteRing) (n : Nat) : InfAnswers t k r n [] [] k r n
  | call {k k1 k2 : Kernel} {r r1 r2 : InfiniteRing} {n n2 w : Nat} {op : RingOp} {x : Resp}
      {ops : List InfOp} {xs : List Resp} (space : r.writeLen t = .ok w) (noClear : op ≠ .clear)
      (below : passed op n w < posBound t (SeqWrite.writeCapacity r))
      (feed : FeedOk (SeqWrite.writeCapacity r) op)
      (run : r.exec t k op = .ok ((k1, r1), x))
      (rest : InfAnswers t k1 r1 (passed op n w) ops xs k2 r2 n2) :
      InfAnswers t k r n (.call op :: ops) (x :: xs) k2 r2 n2
  | all {k k1 k2 : Kernel} {r r1 r2 : InfiniteRing} {n n2 : Nat} {bs : List Byte}
      {ops : List InfOp} {xs : List Resp}
      (below : n + min bs.length (SeqWrite.writeCapacity r) <
        posBound t (SeqWrite.writeCapacity r))
      (run : r.writeAll t k bs = .ok (k1, r1))
      (rest : InfAnswers t k1 r1 (n + min bs.length (SeqWrite.writeCapacity r)) ops xs k2 r2 n2) :
      InfAnswers t k r n (.writeAll bs :: ops) (.unit :: xs) k2 r2 n2
  | other {k k1 k2 : Kernel} {r r2 : InfiniteRing} {n n2 : Nat} {ops : List InfOp}
      {xs : List Resp} (apart : Apart t k k1 r.ptr r.len)
      (rest : InfAnswers t k1 r n ops xs k2 r2 n2) : InfAnswers t k r n ops xs k2 r2 n2

/-- Two infinite rings that a program cannot tell apart. -/
structure SameInf (t1 : Target) (k1 : Kernel) (r1 : InfiniteRing) (n1 : Nat)
    (t2 : Target) (k2 : Kernel) (r2 : InfiniteRing) (n2 : Nat) : Prop where
  first : InfAt t1 k1 r1 n1
  second : InfAt t2 k2 r2 n2
  readable : r1.fillBuf t1 k1 = r2.fillBuf t2 k2
  writable : writeSliceBytes t1 k1 r1 t1.usizeMax = writeSliceBytes t2 k2 r2 t2.usizeMax

/-- A run of calls on a `BufReader` with other activity around them: the calls and what they
returned. -/
inductive ReaderAnswers {σ : Type} (R : Reader σ) (t : Target) :
    Kernel → BufReader σ → List RdOp → List RdResp → Kernel → BufReader σ → Prop
  | done (k : Kernel) (b : BufReader σ) : ReaderAnswers R t k b [] [] k b
  | call {k k1 k2 : Kernel} {b b1 b2 : BufReader σ} {op : RdOp} {x : RdResp} {h : List Byte}
      {ops : List RdOp} {xs : List RdResp} (run : b.exec R t k op = .ok ((k1, b1), x, h))
      (rest : ReaderAnswers R t k1 b1 ops xs k2 b2) :
      ReaderAnswers R t k b (op :: ops) (x :: xs) k2 b2
  | other {k k1 k2 : Kernel} {b b2 : BufReader σ} {ops : List RdOp} {xs : List RdResp}
      (apart : Apart t k k1 b.buf.ptr b.buf.len) (rest : ReaderAnswers R t k1 b ops xs k2 b2) :
      ReaderAnswers R t k b ops xs k2 b2

/-- A run of calls on a `BufWriter` with other activity around them. -/
inductive WriterAnswers {σ : Type} (W : Writer σ) (t : Target) (fuel : Nat) :
    Kernel → BufWriter σ → List WrOp → List (Out Nat) → Kernel → BufWriter σ → Prop
  | done (k : Kernel) (b : BufWriter σ) : WriterAnswers W t fuel k b [] [] k b
  | call {k k1 k2 : Kernel} {b b1 b2 : BufWriter σ} {op : WrOp} {x : Out Nat}
      {ops : List WrOp} {xs : List (Out Nat)} (run : b.exec W t fuel k op = .ok ((k1, b1), x))
      (rest : WriterAnswers W t fuel k1 b1 ops xs k2 b2) :
      WriterAnswers W t fuel k b (op :: ops) (x :: xs) k2 b2
  | other {k k1 k2 : Kernel} {b b2 : BufWriter σ} {ops : List WrOp} {xs : List (Out Nat)}
      (apart : Apart t k k1 b.buf.ptr b.buf.len) (rest : WriterAnswers W t fuel k1 b ops xs k2 b2) :
      WriterAnswers W t fuel k b ops xs k2 b2

end Vmap
