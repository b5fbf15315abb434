import Verif.Model.Span
import Verif.Model.RingStd
import Verif.Model.RingApi
import Verif.Spec.Demo
/-
The crate's own unit tests, run on the model (by evaluation in the Lean kernel).  They prove nothing
in general; they check that the model does what the real code is known to do.  Each example is
named after the test it repeats, with pages of 64 bytes instead of 4096 where a whole page
is filled.
-/
namespace Vmap
namespace CrateTests
open Spec (RingOp Resp)

/-- A 64-bit machine with overflow checks, as for `cargo test`. -/
abbrev T : Target := ⟨.w64, true⟩

/-- The error table is not looked at. -/
abbrev tab : SysTable := ⟨fun _ => .other 0, fun _ => ""⟩

/-- Little-endian, 8-byte aligned integers (x86-64). -/
abbrev abi : Abi := ⟨false, Scalar.size T⟩

/-- `.expect(..)` and `?` in a test: an error fails it. -/
def ok {α : Type} (x : Exec (Kernel × Result α)) : Exec (Kernel × α) :=
  match x with
  | .ok (k, .ok a) => .ok (k, a)
  | .ok (_, .error _) => .error .panic
  | .error f => .error f

/-- `assert!`. -/
def check (b : Bool) : Exec Unit := if b then .ok () else .error .panic

/-- A directory with the one file that `write_default` or `fs::write` makes. -/
def dir (bytes : List Byte) : Kernel :=
  { demo 0 with
    data := fun o i => if o = 0 then bytes.getD i 0 else 0
    size := fun o => if o = 0 then bytes.length else 0 }

/-- "A cross-platform library for fast and safe memory-mapped IO in Rust" -/
def text : List Byte := [65, 32, 99, 114, 111, 115, 115, 45, 112, 108, 97, 116, 102, 111, 114, 109, 32, 108, 105, 98, 114, 97, 114, 121, 32, 102, 111, 114, 32, 102, 97, 115, 116, 32, 97, 110, 100, 32, 115, 97, 102, 101, 32, 109, 101, 109, 111, 114, 121, 45, 109, 97, 112, 112, 101, 100, 32, 73, 79, 32, 105, 110, 32, 82, 117, 115, 116]

/-- "fast and safe memory-mapped IO" -/
def fast : List Byte := [102, 97, 115, 116, 32, 97, 110, 100, 32, 115, 97, 102, 101, 32, 109, 101, 109, 111, 114, 121, 45, 109, 97, 112, 112, 101, 100, 32, 73, 79]

/-- Smaller pages, for the tests that fill whole pages. -/
def small (page : Nat) : Kernel := { demo 0 with page := page }

/-- `allocation_size` — src/lib.rs:619-645 -/
example : (do
    check ((← (Size.withSize 4096).round T 0) == 0)
    check ((← (Size.withSize 4096).round T 1) == 4096)
    check ((← (Size.withSize 4096).round T 4095) == 4096)
    check ((← (Size.withSize 4096).round T 4096) == 4096)
    check ((← (Size.withSize 4096).round T 4097) == 8192)
    check ((← (Size.withSize 4096).truncate T 0) == 0)
    check ((← (Size.withSize 4096).truncate T 1) == 0)
    check ((← (Size.withSize 4096).truncate T 4095) == 0)
    check ((← (Size.withSize 4096).truncate T 4096) == 4096)
    check ((← (Size.withSize 4096).truncate T 4097) == 4096)
    check ((← (Size.withSize 4096).size T 0) == 0)
    check ((← (Size.withSize 4096).size T 1) == 4096)
    check ((← (Size.withSize 4096).size T 2) == 8192)
    check ((← (Size.withSize 4096).count T 0) == 0)
    check ((← (Size.withSize 4096).count T 1) == 1)
    check ((← (Size.withSize 4096).count T 4095) == 1)
    check ((← (Size.withSize 4096).count T 4096) == 1)
    check ((← (Size.withSize 4096).count T 4097) == 2)
    check ((← (Size.withSize 4096).count T 8192) == 2)
    check ((← (Size.withSize 4096).offset T 0) == 0)
    check ((← (Size.withSize 4096).offset T 1) == 1)
    check ((← (Size.withSize 4096).offset T 4095) == 4095)
    check ((← (Size.withSize 4096).offset T 4096) == 0)
    check ((← (Size.withSize 4096).offset T 4097) == 1)
    : Exec Unit) = .ok () := by decide +kernel

/-- `alloc_min` — src/lib.rs:648-658 -/
example : (do
    let (k, m) ← ok ((Options.newMut.setLen (.min 100)).alloc T (demo 0))
    check (m.len == (← (Size.alloc k).round T 100))
    check ((← k.loadN m.ptr 5) == [0, 0, 0, 0, 0])
    let k ← k.storeN m.ptr [104, 101, 108, 108, 111]
    check ((← k.loadN m.ptr 5) == [104, 101, 108, 108, 111])
    : Exec Unit) = .ok () := by decide +kernel

/-- `alloc_exact` — src/lib.rs:661-669 -/
example : (do
    let (k, m) ← ok ((Options.newMut.setLen (.exact 5)).alloc T (demo 0))
    check (m.len == 5)
    check ((← m.bytes k) == [0, 0, 0, 0, 0])
    let k ← k.storeN m.ptr [104, 101, 108, 108, 111]
    check ((← m.bytes k) == [104, 101, 108, 108, 111])
    : Exec Unit) = .ok () := by decide +kernel

/-- `alloc_offset` — src/lib.rs:672-687 -/
example : (do
    let off ← subU T (← (Size.alloc (demo 0)).size T 1) 5
    let (k, m) ← ok (((Options.newMut.setOffset off).setLen (.exact 6)).alloc T (demo 0))
    let (k, _) ← ok (.ok (Unix.protect k (ptrAdd T m.ptr 5) 1 .readOnly))
    check (m.len == 6)
    check ((← m.bytes k) == [0, 0, 0, 0, 0, 0])
    let k ← k.storeN m.ptr [104, 101, 108, 108, 111]
    check ((← m.bytes k) == [104, 101, 108, 108, 111] ++ [0])
    : Exec Unit) = .ok () := by decide +kernel

/-- The remark in `alloc_offset` ("writing one more byte will segfault"). -/
example : (do
    let (k, m) ← ok (((Options.newMut.setOffset 4091).setLen (.exact 6)).alloc T (demo 0))
    let (k, _) ← ok (.ok (Unix.protect k (ptrAdd T m.ptr 5) 1 .readOnly))
    discard (k.store (m.ptr + 5) 33)
    : Exec Unit) = .error .memory := by decide +kernel

/-- `read_end` — src/lib.rs:690-697 -/
example : (do
    let (k, m, _) ← ok ((Options.new.setOffset 29).open_ tab T (dir text) "data")
    check (m.len ≥ 30)
    check (text.length - 29 == m.len)
    check ((← k.loadN m.ptr 30) == fast)
    : Exec Unit) = .ok () := by decide +kernel

/-- `read_min` — src/lib.rs:700-711 -/
example : (do
    let (k, m, _) ← ok (((Options.new.setOffset 29).setLen (.min 30)).open_ tab T (dir text) "data")
    check (m.len ≥ 30)
    check (text.length - 29 == m.len)
    check ((← k.loadN m.ptr 30) == fast)
    : Exec Unit) = .ok () := by decide +kernel

/-- `read_max` — src/lib.rs:714-723 -/
example : (do
    let (k, m, _) ← ok (((Options.new.setOffset 29).setLen (.max 30)).open_ tab T (dir text) "data")
    check (m.len == 30)
    check ((← m.bytes k) == fast)
    : Exec Unit) = .ok () := by decide +kernel

/-- `read_exact` — src/lib.rs:726-732 -/
example : (do
    let (k, m, _) ← ok (((Options.new.setOffset 29).setLen (.exact 30)).open_ tab T (dir text) "data")
    check (m.len == 30)
    check ((← m.bytes k) == fast)
    : Exec Unit) = .ok () := by decide +kernel

/-- `copy` — src/lib.rs:735-748 -/
example : (do
    let (k, m, _) ← ok ((((Options.newMut.setOffset 29).setLen (.exact 30)).copy).open_ tab T (dir text) "data")
    check (m.len == 30)
    check ((← m.bytes k) == fast)
    let k ← k.storeN m.ptr [110, 105, 99, 101]
    check ((← m.bytes k) == [110, 105, 99, 101] ++ fast.drop 4)
    : Exec Unit) = .ok () := by decide +kernel

/-- `write_into_mut` — src/lib.rs:751-776 -/
example : (do
    let (k, m, _) ← ok ((Options.new.write.setResize (.exact 16)).open_ tab T (dir [116, 104, 105, 115, 32, 105, 115, 32, 97, 32, 116, 101, 115, 116]) "data")
    check (m.len == 16)
    check ((← m.bytes k) == [116, 104, 105, 115, 32, 105, 115, 32, 97, 32, 116, 101, 115, 116] ++ [0, 0])
    let (k, m) ← match ← (Map.fromPtr m.ptr m.len).intoMapMut T k with
      | (k, .ok m) => pure (k, m)
      | (_, .error _) => .error .panic
    let k ← k.storeN m.ptr [116, 104, 97, 116]
    check ((← m.bytes k) == [116, 104, 97, 116, 32, 105, 115, 32, 97, 32, 116, 101, 115, 116] ++ [0, 0])
    let (k, m) ← match ← m.intoMap T k with
      | (k, .ok m) => pure (k, m)
      | (_, .error _) => .error .panic
    check ((← m.bytes k) == [116, 104, 97, 116, 32, 105, 115, 32, 97, 32, 116, 101, 115, 116] ++ [0, 0])
    let (k, m, _) ← ok (Options.new.open_ tab T k "data")
    check (m.len == 16)
    check ((← m.bytes k) == [116, 104, 97, 116, 32, 105, 115, 32, 97, 32, 116, 101, 115, 116] ++ [0, 0])
    : Exec Unit) = .ok () := by decide +kernel

/-- `truncate` — src/lib.rs:779-792 -/
example : (do
    let (k, m, _) ← ok (((Options.new.write.setTruncate true).setResize (.exact 16)).open_ tab T (dir [116, 104, 105, 115, 32, 105, 115, 32, 97, 32, 116, 101, 115, 116]) "data")
    check (m.len == 16)
    check ((← m.bytes k) == List.replicate 16 0)
    : Exec Unit) = .ok () := by decide +kernel

/-- `volatile` — src/lib.rs:811-838 -/
example : (do
    let (k, m, _) ← ok ((((Options.newMut.write.setTruncate true).create true).setResize (.exact 16)).open_ tab T (demo 0) "volatile")
    check (m.len == 16)
    check ((← m.span.readVolatile T abi k .u64 0) == 0)
    check ((← m.span.readVolatile T abi k .u64 8) == 0)
    let k ← m.span.writeVolatile T abi k .u64 0 0xc3a5c85c97cb3127
    let k ← m.span.writeVolatile T abi k .u64 8 0xb492b66fbe98f273
    check ((← m.span.readVolatile T abi k .u64 0) == 0xc3a5c85c97cb3127)
    check ((← m.span.readVolatile T abi k .u64 8) == 0xb492b66fbe98f273)
    let (k, m, _) ← ok (Options.new.open_ tab T k "volatile")
    check (m.len == 16)
    check ((← m.span.readVolatile T abi k .u64 0) == 0xc3a5c85c97cb3127)
    check ((← m.span.readVolatile T abi k .u64 8) == 0xb492b66fbe98f273)
    : Exec Unit) = .ok () := by decide +kernel

/-- `unaligned` — src/lib.rs:841-868 -/
example : (do
    let (k, m, _) ← ok ((((Options.newMut.write.setTruncate true).create true).setResize (.exact 17)).open_ tab T (demo 0) "unaligned")
    check (m.len == 17)
    check ((← m.span.readUnaligned T abi k .u64 1) == 0)
    check ((← m.span.readUnaligned T abi k .u64 9) == 0)
    let k ← m.span.writeUnaligned T abi k .u64 1 0xc3a5c85c97cb3127
    let k ← m.span.writeUnaligned T abi k .u64 9 0xb492b66fbe98f273
    check ((← m.span.readUnaligned T abi k .u64 1) == 0xc3a5c85c97cb3127)
    check ((← m.span.readUnaligned T abi k .u64 9) == 0xb492b66fbe98f273)
    let (k, m, _) ← ok (Options.new.open_ tab T k "unaligned")
    check (m.len == 17)
    check ((← m.span.readUnaligned T abi k .u64 1) == 0xc3a5c85c97cb3127)
    check ((← m.span.readUnaligned T abi k .u64 9) == 0xb492b66fbe98f273)
    : Exec Unit) = .ok () := by decide +kernel

/-- `size` — src/io/mod.rs:126-138 -/
example : (do
    let (k, r) ← ok (Ring.new T (demo 0) 1000)
    check (SeqWrite.writeCapacity r == 4096)
    check ((← r.readLen T) == 0)
    check ((← r.writeLen T) == 4096)
    let (_, r, n) ← r.write T k [116, 101, 115, 116]
    check (n == 4)
    check (SeqWrite.writeCapacity r == 4096)
    check ((← r.readLen T) == 4)
    check ((← r.writeLen T) == 4096 - 4)
    : Exec Unit) = .ok () := by decide +kernel

/-- The word of `wrap` and `overwrite`. -/
def word : List Byte := [97, 110, 116, 104, 114, 111, 112, 111, 109, 111, 114, 112, 104, 111, 108, 111, 103, 105, 99, 97, 108, 108, 121]

/-- Call `write` with `bs` `n` times (the tests' loops of `write_all`). -/
def writes (k : Kernel) (r : Ring) (bs : List Byte) : Nat → Exec (Kernel × Ring)
  | 0 => .ok (k, r)
  | n + 1 => do
    let (k, r, m) ← r.write T k bs
    check (m == bs.length)
    writes k r bs n

/-- The same for an infinite ring. -/
def infWrites (k : Kernel) (r : InfiniteRing) (bs : List Byte) : Nat → Exec (Kernel × InfiniteRing)
  | 0 => .ok (k, r)
  | n + 1 => do
    let (k, r) ← r.writeAll T k bs
    infWrites k r bs n

/-- `wrap` — src/io/mod.rs:141-157 -/
example : (do
    let (k, r) ← ok (Ring.new T (small 64) 60)
    let n := SeqWrite.writeCapacity r / word.length
    let (k, r) ← writes k r word n
    check ((← r.readLen T) == n * word.length)
    let r ← r.consume T ((n - 1) * word.length)
    check ((← r.readLen T) == word.length)
    let (k, r, m) ← r.write T k word
    check (m == word.length)
    check ((← r.readLen T) == 2 * word.length)
    check ((← readSliceBytes T k r 46) == word ++ word)
    : Exec Unit) = .ok () := by decide +kernel

/-- `overwrite` — src/io/mod.rs:217-230 -/
example : (do
    let (k, r) ← ok (InfiniteRing.new T (small 64) 60)
    let n := 2 * SeqWrite.writeCapacity r / word.length + 1
    let (k, r) ← infWrites k r word n
    check ((← r.readLen T) == SeqWrite.writeCapacity r)
    let e := word.length - SeqWrite.writeCapacity r % word.length
    check ((← readSliceBytes T k r 10) == ((word ++ word).drop e).take 10)
    : Exec Unit) = .ok () := by decide +kernel

/-- One round of `ring_sizes_vs_page_size`: fill a ring with 16-bit numbers and read them back. -/
def sizes (page hint : Nat) : Exec Unit := do
  let (k, r) ← ok (Ring.new T (small page) hint)
  let n := SeqWrite.writeCapacity r / 2
  let rec fill (k : Kernel) (r : Ring) (v : Nat) : Nat → Exec (Kernel × Ring)
    | 0 => .ok (k, r)
    | m + 1 => do
      let (k, r, w) ← r.write T k [UInt8.ofNat (v % 256), UInt8.ofNat (v / 256 % 256)]
      check (w == 2)
      fill k r (v + 1) m
  let rec look (k : Kernel) (r : Ring) (v : Nat) : Nat → Exec Unit
    | 0 => .ok ()
    | m + 1 => do
      check ((← readSliceBytes T k r 2) == [UInt8.ofNat (v % 256), UInt8.ofNat (v / 256 % 256)])
      let r ← r.consume T 2
      look k r (v + 1) m
  let (k, r) ← fill k r 0x1001 n
  check ((← r.readLen T) == n * 2)
  look k r 0x1001 n

/-- `ring_sizes_vs_page_size` — src/io/mod.rs:160-214, with pages of 4 bytes: all eight sizes, one less, and
one more. -/
example : (do
    for pages in [9, 8, 7, 6, 5, 4, 3, 2] do
      sizes 4 (pages * 4 - 1)
      sizes 4 (pages * 4)
      sizes 4 (pages * 4 + 1)
    : Exec Unit) = .ok () := by decide +kernel

/-- `test_bytes_sanity` — src/io/bytes.rs:45-68 -/
example : (do
    let (k, r) ← ok (Ring.new T (demo 0) 4096)
    check ((← r.remaining T) == 0)
    check ((← r.chunk T k).length == 0)
    check ((← r.remainingMut T) == 4096)
    check ((← r.chunkMut T).2 == 4096)
    let (k, r) ← match ← r.putSlice T 11 k [104, 101, 108, 108, 111, 32, 119, 111, 114, 108, 100] with
      | some x => pure x
      | none => .error .panic
    check ((← r.remaining T) == 11)
    check ((← r.chunk T k) == [104, 101, 108, 108, 111, 32, 119, 111, 114, 108, 100])
    check ((← r.remainingMut T) == 4096 - 11)
    check ((← r.chunkMut T).2 == 4096 - 11)
    let r ← r.advance T 6
    check ((← r.remaining T) == 5)
    check ((← r.chunk T k) == [119, 111, 114, 108, 100])
    check ((← r.remainingMut T) == 4096 - 5)
    check ((← r.chunkMut T).2 == 4096 - 5)
    : Exec Unit) = .ok () := by decide +kernel

end CrateTests
end Vmap
