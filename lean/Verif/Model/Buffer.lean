import Verif.Model.RingStd
/-
src/io/buffer.rs: `BufReader` and `BufWriter` over an arbitrary inner reader or writer.

The inner object is a state machine on an arbitrary state type `σ`; nothing is assumed of it, so
it may return short counts, errors, panic, or lie about counts.  Being safe Rust it cannot
store outside the slice it is given.  What else the inner object does to the world (files,
sockets, its own memory) is inside `σ`.
-/
namespace Vmap

/-- What `Read::read(&mut slice)` of the inner reader does: it stores `stored` at the front of the
slice (as far as it has room; a reader that leaves bytes alone stores what it saw there) and
then returns `Ok(n)`, returns an error, or panics.  Environment of src/io/buffer.rs:142,183. -/
inductive ReadResp
  | ok (n : Nat) (stored : List Byte)
  | err (e : IoError) (stored : List Byte)
  | panic (stored : List Byte)
  deriving DecidableEq, Repr

/-- An inner reader (`R: Read`): offered a slice with the given current contents.
The parameter `R` of src/io/buffer.rs:34-40. -/
structure Reader (σ : Type) where
  read : σ → List Byte → σ × ReadResp

/-- What `Write::write(data)` of the inner writer does.  Environment of src/io/buffer.rs:363,429. -/
inductive WriteResp
  | ok (n : Nat)
  | err (e : IoError)
  | panic
  deriving DecidableEq, Repr

/-- What `Write::flush()` of the inner writer does.  Environment of src/io/buffer.rs:438. -/
inductive FlushResp
  | ok
  | err (e : IoError)
  | panic
  deriving DecidableEq, Repr

/-- An inner writer (`W: Write`).  The parameter `W` of src/io/buffer.rs:223-229. -/
structure Writer (σ : Type) where
  write : σ → List Byte → σ × WriteResp
  flush : σ → σ × FlushResp

/-- How a call ends: `Ok`, `Err`, unwinding with a panic of the *inner* object, or (for `flush_buf`'s
unbounded loop) still running after the given number of rounds.  A panic of the crate's
own code is `Fault.panic`, never `unwound`.  Results of src/io/buffer.rs:137-191, 356-439. -/
inductive Out (α : Type)
  | ok (a : α)
  | err (e : IoError)
  | unwound
  | pending
  deriving DecidableEq, Repr

/-! ### BufReader -/

/-- `struct BufReader` — src/io/buffer.rs:34-38. -/
structure BufReader (σ : Type) where
  buf : Ring
  inner : σ
  lowat : Nat

namespace BufReader
variable {σ : Type}

/-- `BufReader::new` — src/io/buffer.rs:42-48. -/
def new (t : Target) (k : Kernel) (inner : σ) (capacity : Nat) :
    Exec (Kernel × Result (BufReader σ)) := do
  let (k, r) ← Ring.make t k capacity
  match r with
  | .error e => return (k, .error e)
  | .ok buf => return (k, .ok { buf, inner, lowat := 0 })

/-- `set_lowat` — src/io/buffer.rs:73-75. -/
def setLowat (b : BufReader σ) (val : Nat) : BufReader σ := { b with lowat := val }

/-- `buffer` — src/io/buffer.rs:91-93. -/
def buffer (t : Target) (k : Kernel) (b : BufReader σ) : Exec (List Byte) :=
  readSliceBytes t k b.buf t.usizeMax

/-- `into_inner` — src/io/buffer.rs:96-98: the ring is dropped. -/
def intoInner (t : Target) (k : Kernel) (b : BufReader σ) : Exec (Kernel × σ) := do
  let k ← b.buf.drop t k
  return (k, b.inner)

/-- `fill_buf` — src/io/buffer.rs:181-187. -/
def fillBuf (R : Reader σ) (t : Target) (k : Kernel) (b : BufReader σ) :
    Exec (Kernel × BufReader σ × Out (List Byte)) := do
  let n ← b.buf.readLen t
  if n ≤ b.lowat then
    let old ← writeSliceBytes t k b.buf t.usizeMax
    match R.read b.inner old with
    | (inner, .ok n stored) => do
      let k ← poke t k b.buf stored
      let buf ← b.buf.feed t n
      let b := { b with buf, inner }
      let bs ← b.buffer t k
      return (k, b, .ok bs)
    | (inner, .err e stored) => do
      let k ← poke t k b.buf stored
      return (k, { b with inner }, .err e)
    | (inner, .panic stored) => do
      let k ← poke t k b.buf stored
      return (k, { b with inner }, .unwound)
  else
    let bs ← b.buffer t k
    return (k, b, .ok bs)

/-- `consume` — src/io/buffer.rs:189-191. -/
def consume (t : Target) (b : BufReader σ) (n : Nat) : Exec (BufReader σ) := do
  let buf ← b.buf.consume t n
  return { b with buf }

/-- Contents of a slice after storing `stored` at its front.
Environment of src/io/buffer.rs:142,183. -/
def storeFront (old stored : List Byte) : List Byte :=
  stored.take old.length ++ old.drop stored.length

/-- `read` — src/io/buffer.rs:138-150, for a destination with contents `dst`: the new contents of
the destination and the result.  `rem.read(buf)` is `impl Read for &[u8]` (std): copies
`min(rem.len(), buf.len())` bytes. -/
def read (R : Reader σ) (t : Target) (k : Kernel) (b : BufReader σ) (dst : List Byte) :
    Exec (Kernel × BufReader σ × List Byte × Out Nat) := do
  let n ← b.buf.readLen t
  if n = 0 ∧ dst.length ≥ SeqWrite.writeCapacity b.buf then
    match R.read b.inner dst with
    | (inner, .ok n stored) => return (k, { b with inner }, storeFront dst stored, .ok n)
    | (inner, .err e stored) => return (k, { b with inner }, storeFront dst stored, .err e)
    | (inner, .panic stored) => return (k, { b with inner }, storeFront dst stored, .unwound)
  else
    let (k, b, x) ← b.fillBuf R t k
    match x with
    | .ok rem => do
      let nread := min rem.length dst.length
      let b ← b.consume t nread
      return (k, b, storeFront dst (rem.take nread), .ok nread)
    | .err e => return (k, b, dst, .err e)
    | .unwound => return (k, b, dst, .unwound)
    | .pending => return (k, b, dst, .pending)

end BufReader

/-! ### BufWriter -/

/-- `struct BufWriter` — src/io/buffer.rs:223-227. -/
structure BufWriter (σ : Type) where
  buf : Ring
  inner : σ
  panicked : Bool

namespace BufWriter
variable {σ : Type}

/-- `from_parts` — src/io/buffer.rs:238-244. -/
def fromParts (inner : σ) (buf : Ring) : BufWriter σ := { buf, inner, panicked := false }

/-- `BufWriter::new` — src/io/buffer.rs:231-233. -/
def new (t : Target) (k : Kernel) (inner : σ) (capacity : Nat) :
    Exec (Kernel × Result (BufWriter σ)) := do
  let (k, r) ← Ring.make t k capacity
  match r with
  | .error e => return (k, .error e)
  | .ok buf => return (k, .ok (fromParts inner buf))

/-- The buffered bytes: `as_read_slice(usize::MAX)` of the ring.  src/io/buffer.rs:91-93. -/
def buffered (t : Target) (k : Kernel) (b : BufWriter σ) : Exec (List Byte) :=
  readSliceBytes t k b.buf t.usizeMax

/-- `flush_buf` — src/io/buffer.rs:356-375; at most `fuel` rounds of the loop.  If the inner
writer panics, `panicked` stays set. -/
def flushBuf (W : Writer σ) (t : Target) (k : Kernel) :
    Nat → BufWriter σ → Exec (BufWriter σ × Out Unit)
  | 0, b => return (b, .pending)
  | fuel + 1, b => do
    if ← isEmpty t b.buf then return (b, .ok ())
    else
      let data ← b.buffered t k
      match W.write b.inner data with
      | (inner, .panic) => return ({ b with inner, panicked := true }, .unwound)
      | (inner, .ok 0) =>
        return ({ b with inner, panicked := false }, .err (.ofKind .writeZero))
      | (inner, .ok n) => do
        let buf ← b.buf.consume t n
        flushBuf W t k fuel { buf, inner, panicked := false }
      | (inner, .err e) =>
        if e.kind = .interrupted then flushBuf W t k fuel { b with inner, panicked := false }
        else return ({ b with inner, panicked := false }, .err e)

/-- The second half of `write` — src/io/buffer.rs:427-434. -/
def writeRest (W : Writer σ) (t : Target) (k : Kernel) (b : BufWriter σ) (data : List Byte) :
    Exec (Kernel × BufWriter σ × Out Nat) := do
  let w ← b.buf.writeLen t
  if data.length ≥ w then
    match W.write b.inner data with
    | (inner, .panic) => return (k, { b with inner, panicked := true }, .unwound)
    | (inner, .ok n) => return (k, { b with inner, panicked := false }, .ok n)
    | (inner, .err e) => return (k, { b with inner, panicked := false }, .err e)
  else
    let (k, buf, n) ← b.buf.write t k data
    return (k, { b with buf }, .ok n)

/-- `write` — src/io/buffer.rs:423-435. -/
def write (W : Writer σ) (t : Target) (fuel : Nat) (k : Kernel) (b : BufWriter σ)
    (data : List Byte) : Exec (Kernel × BufWriter σ × Out Nat) := do
  let w ← b.buf.writeLen t
  if data.length > w then
    let (b, x) ← flushBuf W t k fuel b
    match x with
    | .ok () => b.writeRest W t k data
    | .err e => return (k, b, .err e)
    | .unwound => return (k, b, .unwound)
    | .pending => return (k, b, .pending)
  else b.writeRest W t k data

/-- `flush` — src/io/buffer.rs:437-439. -/
def flush (W : Writer σ) (t : Target) (fuel : Nat) (k : Kernel) (b : BufWriter σ) :
    Exec (BufWriter σ × Out Unit) := do
  let (b, x) ← flushBuf W t k fuel b
  match x with
  | .ok () =>
    match W.flush b.inner with
    | (inner, .ok) => return ({ b with inner }, .ok ())
    | (inner, .err e) => return ({ b with inner }, .err e)
    | (inner, .panic) => return ({ b with inner }, .unwound)
  | x => return (b, x)

/-- `into_parts` — src/io/buffer.rs:341-354: the inner writer, whether the result is
`Err(WriterPanicked)`, and the ring inside that result. -/
def intoParts (b : BufWriter σ) : σ × Bool × Ring := (b.inner, b.panicked, b.buf)

/-- How `into_inner` ends.  src/io/buffer.rs:301-306. -/
inductive Inner (σ : Type)
  | ok (inner : σ)
  | err (b : BufWriter σ) (e : IoError)
  | unwound (inner : σ)
  | pending (b : BufWriter σ)

/-- `Drop for BufWriter` — src/io/buffer.rs:414-420 — and the drop of the fields: the ring is
unmapped also while unwinding. -/
def drop (W : Writer σ) (t : Target) (fuel : Nat) (k : Kernel) (b : BufWriter σ) :
    Exec (Kernel × σ × Out Unit) := do
  if b.panicked then
    let k ← b.buf.drop t k
    return (k, b.inner, .ok ())
  else
    let (b, x) ← flushBuf W t k fuel b
    match x with
    | .pending => return (k, b.inner, .pending)
    | .unwound => do
      let k ← b.buf.drop t k
      return (k, b.inner, .unwound)
    | _ => do
      let k ← b.buf.drop t k
      return (k, b.inner, .ok ())

/-- `into_inner` — src/io/buffer.rs:301-306.  On success the ring in the discarded half of
`into_parts()` is dropped; on unwinding `self` is dropped (with `panicked` set, so without
another flush). -/
def intoInner (W : Writer σ) (t : Target) (fuel : Nat) (k : Kernel) (b : BufWriter σ) :
    Exec (Kernel × Inner σ) := do
  let (b, x) ← flushBuf W t k fuel b
  match x with
  | .err e => return (k, .err b e)
  | .ok () => do
    let (inner, _, buf) := b.intoParts
    let k ← buf.drop t k
    return (k, .ok inner)
  | .unwound => do
    let (k, inner, _) ← b.drop W t fuel k
    return (k, .unwound inner)
  | .pending => return (k, .pending b)

end BufWriter
end Vmap
