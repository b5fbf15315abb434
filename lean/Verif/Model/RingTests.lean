import Verif.Model.Doc
import Verif.Model.WinDoc
import Verif.Model.Bytes
/-
The crate's own tests of rings, as programs over the model: src/io/mod.rs:117-231 and
src/io/bytes.rs:37-69.  A failed assertion and an `expect` of an error are panics.  Each test makes a ring and
drops it at the end; what it does in between is a function of the ring.
-/
namespace Vmap
namespace Tests

/-- `ring.write_all(bytes).expect(..)` for one text after the other — src/io/mod.rs:134, 147, 152 and
175-176. -/
def writes (t : Target) : Kernel → Ring → List (List Byte) → Exec (Kernel × Ring)
  | k, r, [] => return (k, r)
  | k, r, p :: ps => do
    match ← r.writeAll t k p with
    | (_, .error _) => .error .panic
    | ((k, r), .ok ()) => writes t k r ps

/-- `assert_eq!(ring.read_len(), n)` — e.g. src/io/mod.rs:130. -/
def readable (t : Target) (r : Ring) (n : Nat) : Exec Unit := do
  let m ← r.readLen t
  Doc.assert (m == n)

/-- `assert_eq!(ring.write_len(), n)` — e.g. src/io/mod.rs:131. -/
def writable (t : Target) (r : Ring) (n : Nat) : Exec Unit := do
  let m ← r.writeLen t
  Doc.assert (m == n)

/-- `"test"` — src/io/mod.rs:133. -/
def test : List Byte := [116, 101, 115, 116]

/-- The test `size` — src/io/mod.rs:126-138 — for a unit of `Size::alloc()`. -/
def size (t : Target) (unit : Nat) (k : Kernel) (r : Ring) : Exec (Kernel × Ring) := do
  let one ← (Size.withSize unit).size t 1
  Doc.assert (SeqWrite.writeCapacity r == one)
  readable t r 0
  writable t r one
  let (k, r) ← writes t k r [test]
  Doc.assert (SeqWrite.writeCapacity r == one)
  readable t r 4
  let rest ← subU t one 4
  writable t r rest
  return (k, r)

/-- `b"anthropomorphologically"` — src/io/mod.rs:144 and 220. -/
def word : List Byte :=
  [97, 110, 116, 104, 114, 111, 112, 111, 109, 111, 114, 112, 104, 111, 108, 111, 103, 105, 99, 97, 108, 108, 121]

/-- The test `wrap` — src/io/mod.rs:141-157. -/
def wrap (t : Target) (k : Kernel) (r : Ring) : Exec (Kernel × Ring) := do
  let n := SeqWrite.writeCapacity r / word.length
  let (k, r) ← writes t k r (List.replicate n word)
  let all ← mulU t n word.length
  readable t r all
  let m ← subU t n 1
  let most ← mulU t m word.length
  let r ← r.consume t most
  readable t r word.length
  let (k, r) ← writes t k r [word]
  let two ← mulU t 2 word.length
  readable t r two
  let got ← readSliceBytes t k r (word ++ word).length
  Doc.assert (got == word ++ word)
  return (k, r)

/-- `((val & 0xffff) as u16).to_ne_bytes()` — src/io/mod.rs:175 and 183 — for the values from `val` on. -/
def pattern (little : Bool) (val n : Nat) : List (List Byte) :=
  (List.range' val n).map fun v => numBytes little 2 (v % 65536)

/-- The reading loop of `ring_sizes_vs_page_size` — src/io/mod.rs:180-210 — without what it prints: whether a
value was wrong (`did_fail`).  `read[0..2]` panics when the slice is shorter. -/
def compare (t : Target) (k : Kernel) (little : Bool) : Nat → Ring → Nat → Bool → Exec (Ring × Bool)
  | 0, r, _, bad => return (r, bad)
  | n + 1, r, val, bad => do
    let got ← readSliceBytes t k r 2
    if got.length < 2 then throw .panic
    let r ← r.consume t 2
    compare t k little n r (val + 1) (bad || got != numBytes little 2 (val % 65536))

/-- One round of the test `ring_sizes_vs_page_size` — src/io/mod.rs:168-213.  Simplification: `did_fail` is
asserted after each round, not once at the end. -/
def sizes (t : Target) (little : Bool) (k : Kernel) (r : Ring) : Exec (Kernel × Ring) := do
  let n := SeqWrite.writeCapacity r / 2
  let (k, r) ← writes t k r (pattern little 4097 n)
  let all ← mulU t n 2
  readable t r all
  let (r, bad) ← compare t k little n r 4097 false
  Doc.assert (!bad)
  return (k, r)

/-- The sizes of the rings of `ring_sizes_vs_page_size` — src/io/mod.rs:163-167.  Simplification: the
product is below `i32::MAX`. -/
def hints (page : Nat) : List Nat :=
  [9, 8, 7, 6, 5, 4, 3, 2].flatMap fun n => [n * page - 1, n * page, n * page + 1]

/-- The test `overwrite` — src/io/mod.rs:217-230. -/
def overwrite (t : Target) (k : Kernel) (r : InfiniteRing) : Exec (Kernel × InfiniteRing) := do
  let twice ← mulU t 2 (SeqWrite.writeCapacity r)
  let n ← addU t (twice / word.length) 1
  let (k, r) ← r.writeFmt t k (List.replicate n word)
  let m ← r.readLen t
  Doc.assert (m == SeqWrite.writeCapacity r)
  let from_ ← subU t word.length (SeqWrite.writeCapacity r % word.length)
  let got ← readSliceBytes t k r 10
  let to ← addU t from_ 10
  if (word ++ word).length < to then throw .panic
  Doc.assert (got == ((word ++ word).drop from_).take 10)
  return (k, r)

/-- `b"hello world"` — src/io/bytes.rs:56. -/
def hello : List Byte := [104, 101, 108, 108, 111, 32, 119, 111, 114, 108, 100]

/-- Four assertions on the free and the used part — src/io/bytes.rs:50-53, 57-60 and 64-67.  The length of the
chunk says the same as `remaining`; where the text compares the chunk itself, so does this. -/
def sane (t : Target) (k : Kernel) (r : Ring) (text : List Byte) (free : Nat) : Exec Unit := do
  let n ← r.remaining t
  Doc.assert (n == text.length)
  let c ← r.chunk t k
  Doc.assert (c == text)
  let m ← r.remainingMut t
  Doc.assert (m == free)
  let d ← r.chunkMut t
  Doc.assert (d.2 == free)

/-- The test `test_bytes_sanity` — src/io/bytes.rs:45-68 — for `size` bytes. -/
def bytesSanity (t : Target) (size : Nat) (k : Kernel) (r : Ring) : Exec (Kernel × Ring) := do
  sane t k r [] size
  match ← r.putSlice t hello.length k hello with
  | none => .error .panic
  | some (k, r) =>
    let rest ← subU t size 11
    sane t k r hello rest
    let r ← r.advance t 6
    let rest ← subU t size 5
    sane t k r (hello.drop 6) rest
    return (k, r)

/-! ### Whole tests -/

/-- A test that makes a `Ring` with `Ring::new(hint).expect(..)` — e.g. src/io/mod.rs:128, dropped at the end. -/
def ring (t : Target) (hint : Nat) (body : Kernel → Ring → Exec (Kernel × Ring)) (k : Kernel) : Exec Kernel := do
  match ← Ring.make t k hint with
  | (_, .error _) => .error .panic
  | (k, .ok r) =>
    let (k, r) ← body k r
    r.drop t k

/-- The same for an `InfiniteRing` — src/io/mod.rs:218. -/
def infinite (t : Target) (hint : Nat) (body : Kernel → InfiniteRing → Exec (Kernel × InfiniteRing)) (k : Kernel) :
    Exec Kernel := do
  match ← InfiniteRing.make t k hint with
  | (_, .error _) => .error .panic
  | (k, .ok r) =>
    let (k, r) ← body k r
    r.drop t k

/-- One ring after the other, as in `ring_sizes_vs_page_size` — src/io/mod.rs:163-213. -/
def rings (t : Target) (body : Kernel → Ring → Exec (Kernel × Ring)) : List Nat → Kernel → Exec Kernel
  | [], k => return k
  | hint :: hs, k => do
    let k ← ring t hint body k
    rings t body hs k

/-- `ring` on Windows (see Model/WinDoc for `mem`).  Over src/io/ring.rs:72-96. -/
def winRing (t : Target) (hint : Nat) (body : Kernel → Ring → Exec (Kernel × Ring)) (mem : Win → Kernel) (s : Win) :
    Exec Win := do
  match ← s.ringNew t hint with
  | (_, .error _) => .error .panic
  | (s, .ok r) =>
    let (_, r) ← body (mem s) r
    return s.dropRing t r

/-- `infinite` on Windows.  Over src/io/ring.rs:233-249. -/
def winInfinite (t : Target) (hint : Nat) (body : Kernel → InfiniteRing → Exec (Kernel × InfiniteRing))
    (mem : Win → Kernel) (s : Win) : Exec Win := do
  match ← s.infNew t hint with
  | (_, .error _) => .error .panic
  | (s, .ok r) =>
    let (_, r) ← body (mem s) r
    return s.dropInf t r

/-- `rings` on Windows — src/io/mod.rs:163-213. -/
def winRings (t : Target) (body : Kernel → Ring → Exec (Kernel × Ring)) (mem : Win → Kernel) :
    List Nat → Win → Exec Win
  | [], s => return s
  | hint :: hs, s => do
    let s ← winRing t hint body mem s
    winRings t body mem hs s

end Tests
end Vmap
