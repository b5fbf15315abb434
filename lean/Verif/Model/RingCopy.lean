import Verif.Model.RingStd
/-
`std::io::copy` between rings, and `read_exact` and `read_to_end` on an `InfiniteRing`.  The loops are
those of the Rust standard library (environment: not code of /repo, which overrides none of these
methods); every step of a loop is a method of src/io/ring.rs.
-/
namespace Vmap

/-- `std::io::copy(&mut from, &mut to)` for two rings, whose `read` and `write_all` are `rd` and `all`:
read into a buffer of `size` bytes (8 KiB in the standard library), stop at a read of 0 bytes,
`write_all` what was read.  At most `steps` rounds (`none`: still looping); `len` counts the bytes of
earlier rounds.  (`Interrupted` does not occur: no `read` of a ring fails.)
Over src/io/ring.rs:144-158, 292-318. -/
def copyRings {ρ ω : Type} (rd : Kernel → ρ → Nat → Exec (ρ × List Byte))
    (all : Kernel → ω → List Byte → Exec ((Kernel × ω) × IoResult Unit)) (size : Nat) :
    Nat → Kernel → ρ → ω → Nat → Exec (Kernel × ρ × ω × Option (IoResult Nat))
  | 0, k, a, b, _ => return (k, a, b, none)
  | steps + 1, k, a, b, len => do
    let (a, bs) ← rd k a size
    if bs.length = 0 then return (k, a, b, some (.ok len))
    else if size < bs.length then throw .panic
    else
      let ((k, b), x) ← all k b bs
      match x with
      | .ok () => copyRings rd all size steps k a b (len + bs.length)
      | .error e => return (k, a, b, some (.error e))

/-- From a `Ring` to a `Ring`.  Over src/io/ring.rs:144-158. -/
def Ring.copyToRing (t : Target) (size steps : Nat) (k : Kernel) (a b : Ring) :
    Exec (Kernel × Ring × Ring × Option (IoResult Nat)) :=
  copyRings (fun k a n => a.read t k n) (fun k b bs => b.writeAll t k bs) size steps k a b 0

/-- From an `InfiniteRing` to a `Ring`.  Over src/io/ring.rs:150-158, 292-296. -/
def InfiniteRing.copyToRing (t : Target) (size steps : Nat) (k : Kernel) (a : InfiniteRing) (b : Ring) :
    Exec (Kernel × InfiniteRing × Ring × Option (IoResult Nat)) :=
  copyRings (fun k a n => a.read t k n) (fun k b bs => b.writeAll t k bs) size steps k a b 0

/-- `write_all` of an `InfiniteRing` with its result, which is always `Ok` — src/io/ring.rs:303-313. -/
def InfiniteRing.takeAll (t : Target) (k : Kernel) (b : InfiniteRing) (bs : List Byte) :
    Exec ((Kernel × InfiniteRing) × IoResult Unit) := do
  let (k, b) ← b.writeAll t k bs
  return ((k, b), .ok ())

/-- From a `Ring` to an `InfiniteRing`.  Over src/io/ring.rs:144-148, 298-318. -/
def Ring.copyToInfinite (t : Target) (size steps : Nat) (k : Kernel) (a : Ring) (b : InfiniteRing) :
    Exec (Kernel × Ring × InfiniteRing × Option (IoResult Nat)) :=
  copyRings (fun k a n => a.read t k n) (InfiniteRing.takeAll t) size steps k a b 0

/-- From an `InfiniteRing` to an `InfiniteRing`.  Over src/io/ring.rs:292-318. -/
def InfiniteRing.copyToInfinite (t : Target) (size steps : Nat) (k : Kernel) (a b : InfiniteRing) :
    Exec (Kernel × InfiniteRing × InfiniteRing × Option (IoResult Nat)) :=
  copyRings (fun k a n => a.read t k n) (InfiniteRing.takeAll t) size steps k a b 0

/-- `std::io::Read::read_exact` on an `InfiniteRing`; as `Ring.readExact`.
Over src/io/ring.rs:292-296. -/
def InfiniteRing.readExact (t : Target) (k : Kernel) (r : InfiniteRing) (n : Nat) (acc : List Byte) :
    Exec (InfiniteRing × List Byte × IoResult Unit) :=
  if _hz : n = 0 then .ok (r, acc, .ok ())
  else match r.read t k n with
    | .error f => .error f
    | .ok (r, bs) =>
      if _hb : bs.length = 0 then .ok (r, acc, .error (.ofKind .unexpectedEof))
      else if n < bs.length then .error .panic
      else readExact t k r (n - bs.length) (acc ++ bs)
termination_by n
decreasing_by omega

/-- `std::io::Read::read_to_end` on an `InfiniteRing`; as `Ring.readToEnd`.
Over src/io/ring.rs:292-296. -/
def InfiniteRing.readToEnd (t : Target) (k : Kernel) :
    Nat → (Nat → Nat) → InfiniteRing → List Byte → Exec (Option (InfiniteRing × List Byte))
  | 0, _, _, _ => .ok none
  | fuel + 1, sz, r, acc => do
    let (r, bs) ← r.read t k (sz 0)
    if bs.length = 0 then return some (r, acc)
    else readToEnd t k fuel (fun i => sz (i + 1)) r (acc ++ bs)

end Vmap
