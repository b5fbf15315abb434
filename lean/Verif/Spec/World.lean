import Verif.Model.Map
import Verif.Spec.Map
import Verif.Spec.RingAt
import Verif.Spec.RingMap
/-
Whole programs: any number of maps and rings used in any order, on one kernel.  C75 and C49
are stated over the states such programs can reach.
-/
namespace Vmap
open Kernel Spec

/-- A thing the program holds: a `Map` or `MapMut` (the same memory: `Map` wraps a `MapMut`), a
`Ring`, an `InfiniteRing`.  For the rings, `n` counts the bytes appended since the last
`clear` (bookkeeping for statements only). -/
inductive Handle
  | map (m : MapMut)
  | ring (r : Ring) (n : Nat)
  | inf (r : InfiniteRing) (n : Nat)

/-- First address of the memory of a handle. -/
def Handle.base : Handle → Nat
  | .map m => m.ptr
  | .ring r _ => r.ptr
  | .inf r _ => r.ptr

/-- Bytes of address space of a handle (a ring occupies twice its capacity). -/
def Handle.bytes : Handle → Nat
  | .map m => m.len
  | .ring r _ => 2 * r.len
  | .inf r _ => 2 * r.len

/-- A running program: the kernel and what the program holds.  `next` is the next unused handle
number; `empties` lists the zero-length maps dropped so far, whose page stays mapped (the
known leak of C40).  Both are bookkeeping for statements. -/
structure World where
  k : Kernel
  held : Nat → Option Handle
  next : Nat
  empties : List MapMut

/-- What a program can do. -/
inductive Op
  /-- `Options::map_if` (`map` differs only in what it returns) -/
  | mapIf (o : Options) (fd : Nat)
  /-- `Options::alloc` (and `MapMut::new`) -/
  | alloc (o : Options)
  /-- `Options::open_if` (`open` differs only in closing the file when there is no map) -/
  | openIf (o : Options) (path : String)
  /-- drop a `File` -/
  | close (fd : Nat)
  /-- write one byte of an open file, by this or any other process -/
  | pwrite (fd i : Nat) (b : Byte)
  /-- `Ring::new` -/
  | newRing (hint : Nat)
  /-- `InfiniteRing::new` -/
  | newInf (hint : Nat)
  /-- drop a map or a ring -/
  | drop (i : Nat)
  /-- `flush_range` (`flush` is `flush_range` of everything: C45) -/
  | flush (i off len : Nat) (mode : FlushMode)
  /-- `advise_range` -/
  | advise (i off len : Nat) (adv : Advise)
  /-- `lock_range` -/
  | lock (i off len : Nat)
  /-- `unlock_range` -/
  | unlock (i off len : Nat)
  /-- `Map::into_map_mut` -/
  | intoMapMut (i : Nat)
  /-- `MapMut::into_map` -/
  | intoMap (i : Nat)
  /-- `map[idx] = b` -/
  | set (i idx : Nat) (b : Byte)
  /-- a call on a `Ring` -/
  | ringOp (i : Nat) (op : RingOp)
  /-- a call on an `InfiniteRing` -/
  | infOp (i : Nat) (op : RingOp)
  /-- `write_all` on an `InfiniteRing` -/
  | infAll (i : Nat) (bs : List Byte)
  /-- no call at all: the kernel writes the chosen bytes of files to storage on its own -/
  | writeBack (sel : Nat → Nat → Bool)

namespace World

/-- A program that holds nothing yet. -/
def start (k : Kernel) : World := ⟨k, fun _ => none, 0, []⟩

/-- The program obtains a new handle. -/
def put (w : World) (k : Kernel) (h : Handle) : World :=
  { w with k := k, held := fun j => if j = w.next then some h else w.held j, next := w.next + 1 }

/-- Handle `i` becomes `h`. -/
def upd (w : World) (k : Kernel) (i : Nat) (h : Option Handle) : World :=
  { w with k := k, held := fun j => if j = i then h else w.held j }

/-- Only the kernel's state changes. -/
def run (w : World) (k : Kernel) : World := { w with k := k }

/-- A call on a map that changes only the kernel's state. -/
def onMap {α : Type} (w : World) (i : Nat) (f : MapMut → Exec (Kernel × α)) : Exec World :=
  match w.held i with
  | some (.map m) => do
    let (k, _) ← f m
    return w.run k
  | _ => return w

/-- One step of a program (the model's functions, applied to what the program holds; a call on a
handle of the wrong kind does not exist in Rust and does nothing here). -/
def step (tab : SysTable) (t : Target) (w : World) : Op → Exec World
  | .mapIf o fd => do
    match ← o.mapIf tab t w.k fd with
    | (k, .ok (some m)) => return w.put k (.map m)
    | (k, _) => return w.run k
  | .alloc o => do
    match ← o.alloc t w.k with
    | (k, .ok m) => return w.put k (.map m)
    | (k, .error _) => return w.run k
  | .openIf o path => do
    match ← o.openIf tab t w.k path with
    | (k, .ok (some m, _)) => return w.put k (.map m)
    | (k, _) => return w.run k
  | .close fd => return w.run (w.k.close fd)
  | .pwrite fd i b =>
    match w.k.fds fd with
    | some f => return w.run (w.k.setByte f.obj i b)
    | none => return w
  | .newRing hint => do
    match ← Ring.make t w.k hint with
    | (k, .ok r) => return w.put k (.ring r 0)
    | (k, .error _) => return w.run k
  | .newInf hint => do
    match ← InfiniteRing.make t w.k hint with
    | (k, .ok r) => return w.put k (.inf r 0)
    | (k, .error _) => return w.run k
  | .drop i =>
    match w.held i with
    | some (.map m) => do
      let k ← m.drop t w.k
      let w := w.upd k i none
      return { w with empties := if m.len = 0 then m :: w.empties else w.empties }
    | some (.ring r _) => do
      let k ← r.drop t w.k
      return w.upd k i none
    | some (.inf r _) => do
      let k ← r.drop t w.k
      return w.upd k i none
    | none => return w
  | .flush i off len mode => w.onMap i (fun m => m.flushRange t w.k off len mode)
  | .advise i off len adv => w.onMap i (fun m => m.adviseRange t w.k off len adv)
  | .lock i off len => w.onMap i (fun m => m.lockRange t w.k off len)
  | .unlock i off len => w.onMap i (fun m => m.unlockRange t w.k off len)
  | .intoMapMut i => w.onMap i (fun m => (Map.mk m).intoMapMut t w.k)
  | .intoMap i => w.onMap i (fun m => m.intoMap t w.k)
  | .set i idx b => w.onMap i (fun m => do
      let k ← m.set w.k idx b
      return (k, ()))
  | .ringOp i op =>
    match w.held i with
    | some (.ring r n) => do
      let l ← r.writeLen t
      let ((k, r), _) ← r.exec t w.k op
      return w.upd k i (some (.ring r (passed op n l)))
    | _ => return w
  | .infOp i op =>
    match w.held i with
    | some (.inf r n) => do
      let l ← r.writeLen t
      let ((k, r), _) ← r.exec t w.k op
      return w.upd k i (some (.inf r (passed op n l)))
    | _ => return w
  | .infAll i bs =>
    match w.held i with
    | some (.inf r n) => do
      let (k, r) ← r.writeAll t w.k bs
      return w.upd k i (some (.inf r (n + min bs.length r.len)))
    | _ => return w
  | .writeBack sel =>
    return w.run { w.k with disk := fun o i => if sel o i then w.k.data o i else w.k.disk o i }

end World

/-- The arguments do not overflow, and a ring's byte count stays below the bound of C08: the
conditions under which C32–C50 and C08–C23 describe the calls. -/
def Op.Sane (t : Target) (w : World) : Op → Prop
  | .mapIf o _ => Fits t o
  | .openIf o _ => Fits t o
  | .alloc o => AllocFits t w.k.page (o.offset % w.k.page) o.len
  | .newRing hint => RingFits t w.k hint
  | .newInf hint => RingFits t w.k hint
  | .flush _ off len _ => off + len < t.lim
  | .advise _ off len _ => off + len < t.lim
  | .lock _ off len => off + len < t.lim
  | .unlock _ off len => off + len < t.lim
  | .ringOp i op => ∀ r n l, w.held i = some (.ring r n) → r.writeLen t = .ok l →
      passed op n l < posBound t r.len
  | .infOp i op => ∀ r n l, w.held i = some (.inf r n) → r.writeLen t = .ok l →
      op ≠ .clear ∧ passed op n l < posBound t r.len ∧ FeedOk r.len op
  | .infAll i bs => ∀ r n, w.held i = some (.inf r n) →
      n + min bs.length r.len < posBound t r.len
  | _ => True

/-- The states a program can reach from kernel state `k0`, by any number of steps. -/
inductive Reach (tab : SysTable) (t : Target) (k0 : Kernel) : World → Prop
  | start : Reach tab t k0 (World.start k0)
  | step {w w' : World} {op : Op} (before : Reach tab t k0 w) (sane : op.Sane t w)
      (step : w.step tab t op = .ok w') : Reach tab t k0 w'

/-- The program gets from `w` to `w'` by any number of steps, and after each of them the kernel
satisfies `P`. -/
inductive Later (tab : SysTable) (t : Target) (P : Kernel → Prop) (w : World) : World → Prop
  | refl : Later tab t P w w
  | step {w1 w2 : World} {op : Op} (before : Later tab t P w w1) (sane : op.Sane t w1)
      (step : w1.step tab t op = .ok w2) (keeps : P w2.k) : Later tab t P w w2

/-- Page `q` contains memory of `[base, base+bytes)` (or, if that is empty, the address `base`
inside the page).  `u` is the page size. -/
def Spec.OnPage (u base bytes q : Nat) : Prop := q * u < base + bytes ∧ base < (q + 1) * u

/-- Page `q` belongs to handle `h`. -/
def Handle.OnPage (u : Nat) (h : Handle) (q : Nat) : Prop := Spec.OnPage u h.base h.bytes q

end Vmap

namespace Vmap

/-- The handle a step works on, if any. -/
def Op.target : Op → Option Nat
  | .drop i => some i
  | .flush i _ _ _ => some i
  | .advise i _ _ _ => some i
  | .lock i _ _ => some i
  | .unlock i _ _ => some i
  | .intoMapMut i => some i
  | .intoMap i => some i
  | .set i _ _ => some i
  | .ringOp i _ => some i
  | .infOp i _ => some i
  | .infAll i _ => some i
  | _ => none

/-- The open file a step works on, if any. -/
def Op.fd : Op → Option Nat
  | .mapIf _ fd => some fd
  | .close fd => some fd
  | .pwrite fd _ _ => some fd
  | _ => none

/-- The step is none of those that write to memory or to files or may change a file's length. -/
def Op.quiet : Op → Bool
  | .mapIf .. => false
  | .openIf .. => false
  | .pwrite .. => false
  | .set .. => false
  | .ringOp .. => false
  | .infOp .. => false
  | .infAll .. => false
  | _ => true

end Vmap
