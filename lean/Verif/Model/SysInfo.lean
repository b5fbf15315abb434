import Verif.Model.Size
/-
The cached system sizes — src/lib.rs:230-283 and src/os/unix/mod.rs:32-35 — called by any number
of threads at once.

The two statics are `AtomicUsize`s accessed with `Ordering::Relaxed`.  A relaxed load may return any
value that was ever stored in that static (or its initial value): this allows at least everything
that the memory model of Rust allows, which also promises that one thread never sees the values of
one static go backwards.  A thread's own steps happen in program order; every interleaving of
the threads is allowed.
-/
namespace Vmap

/-- The two public functions — src/lib.rs:240,265. -/
inductive Query where
  | page
  | alloc
  deriving DecidableEq, Repr

/-- `system_info` on unix — src/os/unix/mod.rs:32-35.  `sysconf`: the (bits of the) value of
`sysconf(_SC_PAGESIZE)`. -/
def unixSystemInfo (sysconf : Nat) : Nat × Nat :=
  let size := asU32 sysconf
  (size, size)

/-- Where a thread is: between two calls, or inside `page_size`/`allocation_size` after having
loaded zero (src/lib.rs:242,267), in `load_system_info` before its two stores (src/lib.rs:279,280).
The pair is the result of `system_info()`. -/
inductive Pc where
  | ready
  | missed (q : Query)
  | storePage (q : Query) (info : Nat × Nat)
  | storeAlloc (q : Query) (info : Nat × Nat)
  deriving DecidableEq, Repr

/-- A thread: the calls still to be made, the position inside the current one, and the results so
far, latest last.  Callers of src/lib.rs:240-272. -/
structure Thread where
  todo : List Query
  pc : Pc
  out : List Nat
  deriving DecidableEq, Repr

/-- All threads, and for each static all values stored in it so far, the initial zero
(src/lib.rs:274,275) included. -/
structure Threads where
  threads : Nat → Thread
  pageHist : List Nat
  allocHist : List Nat

namespace Threads

/-- A load of a static: which of the values stored so far it sees is up to the machine; `c` is its
choice (numbers out of range stand for the initial value).  src/lib.rs:241,266. -/
def load (hist : List Nat) (c : Nat) : Nat := (hist[c]?).getD 0

/-- The load of the static a call reads — src/lib.rs:241,266. -/
def cached (s : Threads) (q : Query) (c : Nat) : Nat :=
  match q with
  | .page => load s.pageHist c
  | .alloc => load s.allocHist c

/-- Replace the state of thread `i`.  Callers of src/lib.rs:240-272. -/
def set (s : Threads) (i : Nat) (x : Thread) : Threads :=
  { s with threads := fun j => if j = i then x else s.threads j }

/-- One step of thread `i` — the bodies of `page_size`, `allocation_size` and `load_system_info`,
src/lib.rs:240-247, 265-272, 277-283 — where `info` is what `system_info()` returns and `c` is what
the machine picks if the step is a load.  The casts `as usize` from `u32` lose nothing.  A thread
with nothing left to do does nothing. -/
def step (info : Nat × Nat) (s : Threads) (i c : Nat) : Threads :=
  let x := s.threads i
  match x.pc with
  | .ready =>
    match x.todo with
    | [] => s
    | q :: todo =>
      let size := s.cached q c
      if size = 0 then s.set i { x with todo := todo, pc := .missed q }
      else s.set i { x with todo := todo, out := x.out ++ [size] }
  | .missed q => s.set i { x with pc := .storePage q info }
  | .storePage q v =>
    let s := { s with pageHist := s.pageHist ++ [v.1] }
    s.set i { x with pc := .storeAlloc q v }
  | .storeAlloc q v =>
    let s := { s with allocHist := s.allocHist ++ [v.2] }
    let r := match q with
      | .page => v.1
      | .alloc => v.2
    s.set i { x with pc := .ready, out := x.out ++ [r] }

/-- A schedule: which thread makes a step, and what the machine picks.
Callers of src/lib.rs:240-272. -/
def run (info : Nat × Nat) : Threads → List (Nat × Nat) → Threads
  | s, [] => s
  | s, (i, c) :: rest => run info (step info s i c) rest

/-- The start of the process: both statics are zero (src/lib.rs:274,275), thread `i` is about to make
the calls `progs i`. -/
def start (progs : Nat → List Query) : Threads where
  threads := fun i => ⟨progs i, .ready, []⟩
  pageHist := [0]
  allocHist := [0]

end Threads
end Vmap
