import Verif.Model.Ring
/-
Provided trait methods that users call on a ring.  The loops are those of the Rust standard
library and of the `bytes` crate (environment: not code of /repo); every step of a loop is a
method of src/io/ring.rs or src/io/bytes.rs.
-/
namespace Vmap
namespace Ring

/-- `std::io::Write::write_all` on a `Ring` (which does not override it, src/io/ring.rs:150-158):
write repeatedly; a write of 0 bytes is `WriteZero`.  (`Ring::write` never returns `Err`.) -/
def writeAll (t : Target) (k : Kernel) (r : Ring) (buf : List Byte) :
    Exec ((Kernel × Ring) × IoResult Unit) :=
  if _hb : buf.length = 0 then .ok ((k, r), .ok ())
  else match r.write t k buf with
    | .error f => .error f
    | .ok (k, r, n) =>
      if _hn : n = 0 then .ok ((k, r), .error (.ofKind .writeZero))
      else if buf.length < n then .error .panic
      else writeAll t k r (buf.drop n)
termination_by buf.length
decreasing_by simp; omega

/-- `std::io::Read::read_exact` on a `Ring` for a destination of `n` bytes; `acc` is what earlier
rounds have stored in the destination.  The second component is the stored bytes.
Over src/io/ring.rs:144-148. -/
def readExact (t : Target) (k : Kernel) (r : Ring) (n : Nat) (acc : List Byte) :
    Exec (Ring × List Byte × IoResult Unit) :=
  if _hz : n = 0 then .ok (r, acc, .ok ())
  else match r.read t k n with
    | .error f => .error f
    | .ok (r, bs) =>
      if _hb : bs.length = 0 then .ok (r, acc, .error (.ofKind .unexpectedEof))
      else if n < bs.length then .error .panic
      else readExact t k r (n - bs.length) (acc ++ bs)
termination_by n
decreasing_by omega

/-- `std::io::BufRead::read_until(d)` on a `Ring`: the appended bytes.  `none`: still looping
after `fuel` rounds.  Over src/io/ring.rs:134-142. -/
def readUntil (t : Target) (k : Kernel) (d : Byte) :
    Nat → Ring → List Byte → Exec (Option (Ring × List Byte))
  | 0, _, _ => .ok none
  | fuel + 1, r, acc => do
    let avail ← r.fillBuf t k
    match avail.idxOf? d with
    | some i => do
      let r ← r.consume t (i + 1)
      return some (r, acc ++ avail.take (i + 1))
    | none => do
      let r ← r.consume t avail.length
      if avail.length = 0 then return some (r, acc ++ avail)
      else readUntil t k d fuel r (acc ++ avail)

/-- `std::io::Read::read_to_end` on a `Ring`: read into destinations of whatever positive sizes
`sz 0, sz 1, …` the vector's growth offers until a read returns 0.  `none`: still
looping after `fuel` rounds.  Over src/io/ring.rs:144-148. -/
def readToEnd (t : Target) (k : Kernel) :
    Nat → (Nat → Nat) → Ring → List Byte → Exec (Option (Ring × List Byte))
  | 0, _, _, _ => .ok none
  | fuel + 1, sz, r, acc => do
    let (r, bs) ← r.read t k (sz 0)
    if bs.length = 0 then return some (r, acc)
    else readToEnd t k fuel (fun i => sz (i + 1)) r (acc ++ bs)

/-! ### `bytes::Buf` and `bytes::BufMut` -/

/-- `Buf::remaining` — src/io/bytes.rs:10-12. -/
def remaining (t : Target) (r : Ring) : Exec Nat := r.readLen t

/-- `Buf::chunk` — src/io/bytes.rs:14-16. -/
def chunk (t : Target) (k : Kernel) (r : Ring) : Exec (List Byte) :=
  readSliceBytes t k r t.usizeMax

/-- `Buf::advance` — src/io/bytes.rs:18-20. -/
def advance (t : Target) (r : Ring) (n : Nat) : Exec Ring := r.consume t n

/-- `BufMut::remaining_mut` — src/io/bytes.rs:24-26. -/
def remainingMut (t : Target) (r : Ring) : Exec Nat := r.writeLen t

/-- `BufMut::chunk_mut` — src/io/bytes.rs:32-34: address and length. -/
def chunkMut (t : Target) (r : Ring) : Exec (Nat × Nat) := asWriteSlice t r t.usizeMax

/-- `BufMut::advance_mut` — src/io/bytes.rs:28-30. -/
def advanceMut (t : Target) (r : Ring) (n : Nat) : Exec Ring := r.feed t n

/-- The loop of `Buf::copy_to_slice` (bytes crate): chunk by chunk.  Over src/io/bytes.rs:9-21. -/
def copyLoop (t : Target) (k : Kernel) :
    Nat → Ring → Nat → List Byte → Exec (Option (Ring × List Byte))
  | _, r, 0, acc => .ok (some (r, acc))
  | 0, _, _ + 1, _ => .ok none
  | fuel + 1, r, n + 1, acc => do
    let c ← r.chunk t k
    let cnt := min c.length (n + 1)
    let r ← r.advance t cnt
    copyLoop t k fuel r (n + 1 - cnt) (acc ++ c.take cnt)

/-- `Buf::copy_to_slice` (bytes crate) into a destination of `n` bytes: panics if fewer remain.
Over src/io/bytes.rs:9-21. -/
def copyToSlice (t : Target) (k : Kernel) (fuel : Nat) (r : Ring) (n : Nat) :
    Exec (Option (Ring × List Byte)) := do
  let m ← r.remaining t
  if m < n then throw .panic
  copyLoop t k fuel r n []

/-- The loop of `BufMut::put_slice` (bytes crate): chunk by chunk.  Over src/io/bytes.rs:23-38. -/
def putLoop (t : Target) : Nat → Kernel → Ring → List Byte → Exec (Option (Kernel × Ring))
  | _, k, r, [] => .ok (some (k, r))
  | 0, _, _, _ :: _ => .ok none
  | fuel + 1, k, r, b :: bs => do
    let c ← r.chunkMut t
    let cnt := min c.2 (b :: bs).length
    let k ← k.storeN c.1 ((b :: bs).take cnt)
    let r ← r.advanceMut t cnt
    putLoop t fuel k r ((b :: bs).drop cnt)

/-- `BufMut::put_slice` (bytes crate): panics if the source does not fit.
Over src/io/bytes.rs:23-38. -/
def putSlice (t : Target) (fuel : Nat) (k : Kernel) (r : Ring) (src : List Byte) :
    Exec (Option (Kernel × Ring)) := do
  let m ← r.remainingMut t
  if m < src.length then throw .panic
  putLoop t fuel k r src

end Ring
end Vmap
