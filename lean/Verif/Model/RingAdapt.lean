import Verif.Model.RingStd
/-
Reading a ring through the adapters of the standard library (`Read::take`, `Read::bytes`,
`Read::chain`) and the vectored calls (`read_vectored`, `write_vectored`).  These are provided by the
Rust standard library (environment: not code of /repo, which overrides none of them); every step is a
method of src/io/ring.rs.
-/
namespace Vmap

/-- The `read` of some kind of ring: what is left of it and the bytes stored.  The type of the methods
at src/io/ring.rs:144-148 and 292-296. -/
abbrev RingRead (ρ : Type) := ρ → Nat → Exec (ρ × List Byte)

/-- `Read::read` of `std::io::Take` over a ring with `limit` bytes to go.
Over src/io/ring.rs:144-148, 292-296. -/
def takeRead {ρ : Type} (rd : RingRead ρ) : RingRead (ρ × Nat) := fun (r, limit) n =>
  if limit = 0 then return ((r, limit), [])
  else do
    let (r, bs) ← rd r (min n limit)
    if limit < bs.length then throw .panic
    else return ((r, limit - bs.length), bs)

/-- `Read::read` of `std::io::Chain` over two rings; the flag tells whether the first is done with.
Over src/io/ring.rs:144-148, 292-296. -/
def chainRead {ρ ω : Type} (rd : RingRead ρ) (rd' : RingRead ω) : RingRead (ρ × ω × Bool) :=
  fun (a, b, done) n => do
    if done then
      let (b, bs) ← rd' b n
      return ((a, b, done), bs)
    else
      let (a, bs) ← rd a n
      if bs.length = 0 ∧ n ≠ 0 then
        let (b, bs) ← rd' b n
        return ((a, b, true), bs)
      else return ((a, b, done), bs)

/-- `Iterator::next` of `std::io::Bytes` over a ring: a read of one byte, `None` when there is none.
Over src/io/ring.rs:144-148, 292-296. -/
def bytesNext {ρ : Type} (rd : RingRead ρ) (r : ρ) : Exec (ρ × Option Byte) := do
  let (r, bs) ← rd r 1
  return (r, bs.head?)

/-- Collecting the iterator; `none`: not done after `steps` calls of `next`.
Over src/io/ring.rs:144-148, 292-296. -/
def collectBytes {ρ : Type} (rd : RingRead ρ) : Nat → ρ → Exec (Option (ρ × List Byte))
  | 0, _ => return none
  | steps + 1, r => do
    match ← bytesNext rd r with
    | (r, none) => return some (r, [])
    | (r, some b) =>
      match ← collectBytes rd steps r with
      | none => return none
      | some (r, bs) => return some (r, b :: bs)

/-- `Read::read_to_end` over anything with this `read`; as `Ring.readToEnd`.
Over src/io/ring.rs:144-148, 292-296. -/
def readAll {ρ : Type} (rd : RingRead ρ) :
    Nat → (Nat → Nat) → ρ → List Byte → Exec (Option (ρ × List Byte))
  | 0, _, _, _ => return none
  | fuel + 1, sz, r, acc => do
    let (r, bs) ← rd r (sz 0)
    if bs.length = 0 then return some (r, acc)
    else readAll rd fuel (fun i => sz (i + 1)) r (acc ++ bs)

/-- `Read::read_vectored` (std's default): a `read` into the first slice that is not empty.  `lens` are
the lengths of the slices.  Over src/io/ring.rs:144-148, 292-296. -/
def readVectored {ρ : Type} (rd : RingRead ρ) (r : ρ) (lens : List Nat) : Exec (ρ × List Byte) :=
  rd r ((lens.find? (· != 0)).getD 0)

/-- `Write::write_vectored` (std's default): a `write` of the first slice that is not empty.
Over src/io/ring.rs:150-154, 298-301. -/
def writeVectored {ρ : Type} (wr : List Byte → Exec (Kernel × ρ × Nat)) (bufs : List (List Byte)) :
    Exec (Kernel × ρ × Nat) :=
  wr ((bufs.find? (fun b => !b.isEmpty)).getD [])

end Vmap
