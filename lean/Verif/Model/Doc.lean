import Verif.Model.Lines
import Verif.Model.BufferStd
/-
The example programs of the documentation of rings and buffered writers, as programs over the model
of the crate.  An `assert!` that fails and an `unwrap` of an error are panics; `?` returns the error.
-/
namespace Vmap
namespace Doc

/-- `assert!` and `assert_eq!` in the examples, e.g. src/lib.rs:111. -/
def assert (b : Bool) : Exec Unit := if b then .ok () else .error .panic

/-- Decimal digits, most significant first, of a number below `10 ^ fuel` (std's `Display` of an
integer).  Environment of src/lib.rs:106. -/
def digits : Nat → Nat → List Byte
  | 0, _ => []
  | fuel + 1, i =>
    if i < 10 then [UInt8.ofNat (48 + i)] else digits fuel (i / 10) ++ [UInt8.ofNat (48 + i % 10)]

/-- The pieces in which `write!(.., "this is test line {}\n", i)` (std) hands over its text, for an
`i: i32` (at most ten digits; `i` is never negative) — src/lib.rs:106, 111, 126 and
src/io/ring.rs:33, 38, 53. -/
def pieces (i : Nat) : List (List Byte) :=
  [[116, 104, 105, 115, 32, 105, 115, 32, 116, 101, 115, 116, 32, 108, 105, 110, 101, 32],
    digits 10 i, [10]]

/-- `"this is test line 1\n"` and the like — src/lib.rs:117, 123 and `format!` at
src/io/ring.rs:200. -/
def line (i : Nat) : List Byte := (pieces i).flatten

/-- `while buf.write_len() > 20 { write!(..)?; i += 1; }` — src/lib.rs:105-108 and
src/io/ring.rs:32-35: the final `i`, or the error of `?`; `none`: still running after `fuel` rounds.
Simplification: `i += 1` beyond `i32::MAX` is a panic in all builds. -/
def fill (t : Target) : Nat → Kernel → Ring → Nat → Exec (Option ((Kernel × Ring) × IoResult Nat))
  | 0, _, _, _ => return none
  | fuel + 1, k, r, i => do
    let w ← r.writeLen t
    if w > 20 then
      match ← r.writeFmt t k (pieces i) with
      | (s, .error e) => return some (s, .error e)
      | ((k, r), .ok ()) =>
        assert (i + 1 < 2 ^ 31)
        fill t fuel k r (i + 1)
    else return some ((k, r), .ok i)

/-- The ring example after `Ring::new` — src/lib.rs:102-128 and src/io/ring.rs:29-55.  `valid` tells
which bytes are UTF-8. -/
def ringBody (t : Target) (valid : List Byte → Bool) (fuel : Nat) (k : Kernel) (r : Ring) :
    Exec (Option ((Kernel × Ring) × IoResult Unit)) := do
  match ← fill t fuel k r 1 with
  | none => return none
  | some (s, .error e) => return some (s, .error e)
  | some ((k, r), .ok i) =>
    let ((k, r), x) ← r.writeFmt t k (pieces i)
    assert (match x with | .error _ => true | .ok () => false)
    match ← readLine (fun r => Ring.readUntil t k 10 (fuel + 2) r []) valid r [] with
    | none => return none
    | some (r, _, .error e) => return some ((k, r), .error e)
    | some (r, got, .ok _) =>
      assert (got = line 1)
      match ← readLine (fun r => Ring.readUntil t k 10 (fuel + 2) r []) valid r [] with
      | none => return none
      | some (r, _, .error e) => return some ((k, r), .error e)
      | some (r, got, .ok _) =>
        assert (got = line 2)
        let (s, x) ← r.writeFmt t k (pieces i)
        return some (s, x)

/-- The ring example — src/lib.rs:101-128 and src/io/ring.rs:28-55; at the end the ring is dropped. -/
def ring (t : Target) (valid : List Byte → Bool) (fuel : Nat) (k : Kernel) :
    Exec (Option (Kernel × IoResult Unit)) := do
  match ← Ring.make t k 4000 with
  | (_, .error _) => .error .panic
  | (k, .ok r) =>
    match ← ringBody t valid fuel k r with
    | none => return none
    | some ((k, r), x) =>
      let k ← r.drop t k
      return some (k, x)

/-- `while total < buf.write_capacity() { .. }` — src/io/ring.rs:199-204: the final `total`; `none`:
still running after `fuel` rounds.  `write!(buf, "{}", tmp)` hands over the text in one piece, and its
result is ignored.  Simplification: as for `fill`. -/
def flood (t : Target) : Nat → Kernel → InfiniteRing → Nat → Nat →
    Exec (Option ((Kernel × InfiniteRing) × Nat))
  | 0, _, _, _, _ => return none
  | fuel + 1, k, r, i, total => do
    if total < SeqWrite.writeCapacity r then
      let (k, r) ← r.writeFmt t k [line i]
      let total ← addU t total (line i).length
      assert (i + 1 < 2 ^ 31)
      flood t fuel k r (i + 1) total
    else return some ((k, r), total)

/-- The infinite ring example after `InfiniteRing::new` — src/io/ring.rs:197-216.  The slice
`line[line.len()-20..]` panics if there are fewer than 20 bytes (the assertion before it has
just failed then). -/
def infiniteBody (t : Target) (valid : List Byte → Bool) (fuel : Nat) (k : Kernel)
    (r : InfiniteRing) : Exec (Option ((Kernel × InfiniteRing) × IoResult Unit)) := do
  match ← flood t fuel k r 1 0 with
  | none => return none
  | some ((k, r), _) =>
    let off ← r.readOffset t
    let n ← subU t 20 off
    let r ← r.consume t n
    match ← readLine (fun r => InfiniteRing.readUntil t k 10 (fuel + 2) r []) valid r [] with
    | none => return none
    | some (r, _, .error e) => return some ((k, r), .error e)
    | some (r, got, .ok len) =>
      assert (len = 20)
      let start ← subU t got.length 20
      assert (got.drop start = line 2)
      return some ((k, r), .ok ())

/-- The infinite ring example — src/io/ring.rs:196-216. -/
def infinite (t : Target) (valid : List Byte → Bool) (fuel : Nat) (k : Kernel) :
    Exec (Option (Kernel × IoResult Unit)) := do
  match ← InfiniteRing.make t k 4000 with
  | (_, .error _) => .error .panic
  | (k, .ok r) =>
    match ← infiniteBody t valid fuel k r with
    | none => return none
    | some ((k, r), x) =>
      let k ← r.drop t k
      return some (k, x)

/-! ### Buffered writers -/

/-- `ErringWriter` — src/io/buffer.rs:269-279: accepts the given number of bytes, then fails with
an error of the given kind (in the documentation `BrokenPipe`). -/
def erring (kind : IoKind) : Writer Nat where
  write n data := if min n data.length = 0 then (n, .err (.ofKind kind))
    else (n - min n data.length, .ok (min n data.length))
  flush n := (n, .ok)

/-- `PanickingWriter` — src/io/buffer.rs:322-326. -/
def panicking : Writer Unit where
  write _ _ := ((), .panic)
  flush _ := ((), .panic)

/-- How an example that returns `vmap::Result<()>` ends: `Ok`, the error of `BufWriter::new(..)?`, the
error of `write_all(..)?`.  src/io/buffer.rs:281-298 and 328-338. -/
inductive End (α : Type)
  | ok (a : α)
  | create (e : Error)
  | write (x : Out Unit)

/-- The example of `into_inner` — src/io/buffer.rs:281-298 — with any limit of the writer, any capacity
and any `text`, where `rest` is what the last assertion expects in the ring; the documentation has 6,
4096, `"hello\nworld\n"` and `"world\n"`.  The recovered writer (or the one that `into_inner` returns)
is the result.  `into_inner()`'s own loop and `write_all` get `fuel` rounds.  The text is read from the
ring with `as_ref`, i.e. `as_read_slice(usize::MAX)`; the ring is dropped after the comparison.  A
`flush_buf` that is still running is `.write .pending`. -/
def recover (t : Target) (fuel : Nat) (k : Kernel) (kind : IoKind)
    (limit capacity : Nat) (text rest : List Byte) :
    Exec (Kernel × End Nat) := do
  match ← BufWriter.new t k limit capacity with
  | (k, .error e) => return (k, .create e)
  | (k, .ok b) =>
    match ← b.writeAll (erring kind) t fuel fuel k text with
    | (k, b, _, .ok ()) =>
      match ← b.intoInner (erring kind) t fuel k with
      | (k, .ok inner) => return (k, .ok inner)
      | (k, .err b e) =>
        assert (e.kind = kind)
        match b.intoParts with
        | (_, true, _) => .error .panic
        | (inner, false, ring) =>
          let got ← readSliceBytes t k ring t.usizeMax
          assert (got = rest)
          let k ← ring.drop t k
          return (k, .ok inner)
      | (_, .unwound _) => .error .panic
      | (k, .pending _) => return (k, .write .pending)
    | (k, b, _, x) =>
      let (k, _, _) ← b.drop (erring kind) t fuel k
      return (k, .write x)

/-- The example of `into_parts` — src/io/buffer.rs:328-338 — with any capacity and `text`; the
documentation has 4096 and `"testing"`.  `result.is_err()` is that the flush unwound (or returned an
error, which `unwrap` turns into a panic); `unwrap_err()` panics if the ring is not wrapped in
`WriterPanicked`. -/
def unwind (t : Target) (fuel : Nat) (k : Kernel) (capacity : Nat) (text : List Byte) :
    Exec (Kernel × End Unit) := do
  match ← BufWriter.new t k () capacity with
  | (k, .error e) => return (k, .create e)
  | (k, .ok b) =>
    match ← b.writeAll panicking t fuel fuel k text with
    | (k, b, _, .ok ()) =>
      let (b, x) ← b.flush panicking t fuel k
      assert (match x with | .unwound => true | .err _ => true | _ => false)
      match b.intoParts with
      | (_, false, _) => .error .panic
      | (inner, true, ring) =>
        let got ← readSliceBytes t k ring t.usizeMax
        assert (got = text)
        let k ← ring.drop t k
        return (k, .ok inner)
    | (k, b, _, x) =>
      let (k, _, _) ← b.drop panicking t fuel k
      return (k, .write x)

/-- The sending end of a connected socket: `sent` bytes under way; the `i`-th call takes at most
`take i + 1` bytes (any function), so at least one.  `TcpStream` at src/io/buffer.rs:207-209. -/
def sender (take : Nat → Nat) : Writer (Nat × List Byte) where
  write s data := ((s.1 + 1, s.2 ++ data.take (take s.1 + 1)), .ok (min data.length (take s.1 + 1)))
  flush s := (s, .ok)

/-- The receiving end: the `i`-th call delivers at most `take i + 1` bytes of those under way, as far
as the slice has room (0 if none are under way).  `TcpStream` at src/io/buffer.rs:206. -/
def receiver (take : Nat → Nat) : Reader (Nat × List Byte) where
  read s old :=
    let n := min (min old.length s.2.length) (take s.1 + 1)
    ((s.1 + 1, s.2.drop n), .ok n (s.2.take n))

/-- The example of `BufWriter` — src/io/buffer.rs:211-218 — with any capacity, `text` and `line`: write
the text through a `BufWriter`, flush, read a line through a `BufReader` at the other end; the
documentation has 4000, `"hello\nworld\n"` and `"hello\n"`.  The example of `BufReader`,
src/io/buffer.rs:25-30, is its second half.  `take` and `take'`: what the sockets do.  The drops at the end are
not part of it.  `write x`: how `write_all` or `flush` failed; `ok x`: how `read_line`
ended. -/
def relay (t : Target) (fuel : Nat) (k : Kernel) (valid : List Byte → Bool) (take take' : Nat → Nat)
    (capacity : Nat) (text line : List Byte) : Exec (Kernel × End (Out Nat)) := do
  match ← BufWriter.new t k (0, []) capacity with
  | (_, .error _) => .error .panic
  | (k, .ok wr) =>
    match ← wr.writeAll (sender take) t fuel fuel k text with
    | (k, wr, _, .ok ()) =>
      match ← wr.flush (sender take) t fuel k with
      | (wr, .ok ()) =>
        match ← BufReader.new t k (0, wr.inner.2) capacity with
        | (_, .error _) => .error .panic
        | (k, .ok rd) =>
          let (k, _, got, x) ← rd.readLine (receiver take') t valid fuel k []
          match x with
          | .ok n =>
            assert (got = line)
            return (k, .ok (.ok n))
          | x => return (k, .ok x)
      | (_, x) => return (k, .write x)
    | (k, _, _, x) => return (k, .write x)

end Doc
end Vmap
