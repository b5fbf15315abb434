import Verif.Model.Darwin
/-
src/io/mod.rs (traits SeqRead, SeqWrite) and src/io/ring.rs (Ring, InfiniteRing).

A slice `&[u8]` into mapped memory is an address and a length; reading it loads through
the kernel's page table, writing it stores through the page table.
-/
namespace Vmap

/-- `trait SeqRead: BufRead`, required methods — src/io/mod.rs:26-34 — together with
`BufRead::consume`. -/
class SeqRead (ρ : Type) where
  asReadPtr : ρ → Nat
  readOffset : Target → ρ → Exec Nat
  readLen : Target → ρ → Exec Nat
  consume : Target → ρ → Nat → Exec ρ

/-- `trait SeqWrite`, required methods — src/io/mod.rs:67-85. -/
class SeqWrite (ρ : Type) where
  asWritePtr : ρ → Nat
  writeOffset : Target → ρ → Exec Nat
  writeLen : Target → ρ → Exec Nat
  writeCapacity : ρ → Nat
  feed : Target → ρ → Nat → Exec ρ

section
variable {ρ : Type}
open SeqRead SeqWrite

/-- `SeqRead::is_empty` — src/io/mod.rs:38-40. -/
def isEmpty [SeqRead ρ] (t : Target) (r : ρ) : Exec Bool := do
  let n ← readLen t r
  return n == 0

/-- `SeqRead::as_read_slice` — src/io/mod.rs:44-51: address and length of the slice. -/
def asReadSlice [SeqRead ρ] (t : Target) (r : ρ) (max : Nat) : Exec (Nat × Nat) := do
  let off ← readOffset t r
  let n ← readLen t r
  return (asReadPtr r + off, min n max)

/-- `SeqRead::read_from` — src/io/mod.rs:54-63, for a destination of `n` bytes: the bytes
put at the front of the destination (their number is the returned count).
Slicing `into[..len]` panics if the destination is shorter. -/
def readFrom [SeqRead ρ] (t : Target) (k : Kernel) (r : ρ) (n : Nat) :
    Exec (ρ × List Byte) := do
  let src ← asReadSlice t r n
  if n < src.2 then throw .panic
  let bs ← k.loadN src.1 src.2
  let r ← consume t r src.2
  return (r, bs)

/-- `SeqWrite::is_full` — src/io/mod.rs:89-91. -/
def isFull [SeqWrite ρ] (t : Target) (r : ρ) : Exec Bool := do
  let n ← writeLen t r
  return n == 0

/-- `SeqWrite::as_write_slice` — src/io/mod.rs:95-102. -/
def asWriteSlice [SeqWrite ρ] (t : Target) (r : ρ) (max : Nat) : Exec (Nat × Nat) := do
  let off ← writeOffset t r
  let n ← writeLen t r
  return (asWritePtr r + off, min n max)

/-- `SeqWrite::write_into` — src/io/mod.rs:105-114.  Slicing `from[..len]` panics if the source
is shorter. -/
def writeInto [SeqWrite ρ] (t : Target) (k : Kernel) (r : ρ) (buf : List Byte) :
    Exec (Kernel × ρ × Nat) := do
  let dst ← asWriteSlice t r buf.length
  if buf.length < dst.2 then throw .panic
  let k ← k.storeN dst.1 (buf.take dst.2)
  let r ← feed t r dst.2
  return (k, r, dst.2)

/-- A caller storing `bs` at the front of `as_write_slice(max)` (safe Rust: at most the
slice's length).  A use of src/io/mod.rs:95-102. -/
def poke [SeqWrite ρ] (t : Target) (k : Kernel) (r : ρ) (bs : List Byte) : Exec Kernel := do
  let dst ← asWriteSlice t r t.usizeMax
  k.storeN dst.1 (bs.take dst.2)

/-- The bytes of `as_read_slice(max)`.  src/io/mod.rs:44-51. -/
def readSliceBytes [SeqRead ρ] (t : Target) (k : Kernel) (r : ρ) (max : Nat) :
    Exec (List Byte) := do
  let s ← asReadSlice t r max
  k.loadN s.1 s.2

/-- The bytes of `as_write_slice(max)` (a `&mut [u8]` can also be read).  src/io/mod.rs:95-102. -/
def writeSliceBytes [SeqWrite ρ] (t : Target) (k : Kernel) (r : ρ) (max : Nat) :
    Exec (List Byte) := do
  let s ← asWriteSlice t r max
  k.loadN s.1 s.2

end

/-! ### Ring -/

/-- `struct Ring` — src/io/ring.rs:58-63. -/
structure Ring where
  ptr : Nat
  len : Nat
  rpos : Nat
  wpos : Nat
  deriving DecidableEq, Repr

namespace Ring

/-- `Ring::new` over posix `map_ring` — src/io/ring.rs:72-81.  `Size::alloc()` (src/lib.rs:312-314)
is the allocation granularity. -/
def new (t : Target) (k : Kernel) (hint : Nat) : Exec (Kernel × Result Ring) := do
  let len ← (Size.withSize (Unix.systemInfo k).2).round t hint
  let (k, r) ← Posix.mapRing t k len
  match r with
  | .error e => return (k, .error e)
  | .ok ptr => return (k, .ok { ptr, len, rpos := 0, wpos := 0 })

/-- `Ring::new` on any Unix: as `new`, with the `map_ring` of the system — src/io/ring.rs:72-81. -/
def make (t : Target) (k : Kernel) (hint : Nat) : Exec (Kernel × Result Ring) := do
  let len ← (Size.withSize (Unix.systemInfo k).2).round t hint
  let (k, r) ← Os.mapRing t k len
  match r with
  | .error e => return (k, .error e)
  | .ok ptr => return (k, .ok { ptr, len, rpos := 0, wpos := 0 })

/-- `Ring::clear` — src/io/ring.rs:86-89. -/
def clear (r : Ring) : Ring := { r with rpos := 0, wpos := 0 }

/-- `read_len` — src/io/ring.rs:107-109. -/
def readLen (t : Target) (r : Ring) : Exec Nat := do
  let d ← sub64 t r.wpos r.rpos
  return asUsize t d

/-- `read_offset` — src/io/ring.rs:103-105 (`as` binds tighter than `%`). -/
def readOffset (t : Target) (r : Ring) : Exec Nat := modU (asUsize t r.rpos) r.len

/-- `write_offset` — src/io/ring.rs:117-119. -/
def writeOffset (t : Target) (r : Ring) : Exec Nat := modU (asUsize t r.wpos) r.len

/-- `write_len` — src/io/ring.rs:121-123. -/
def writeLen (t : Target) (r : Ring) : Exec Nat := do
  let n ← r.readLen t
  subU t r.len n

/-- `feed` — src/io/ring.rs:129-131. -/
def feed (t : Target) (r : Ring) (n : Nat) : Exec Ring := do
  let w ← r.writeLen t
  let wpos ← add64 t r.wpos (asU64 (min n w))
  return { r with wpos }

/-- `consume` — src/io/ring.rs:139-141. -/
def consume (t : Target) (r : Ring) (n : Nat) : Exec Ring := do
  let m ← r.readLen t
  let rpos ← add64 t r.rpos (asU64 (min n m))
  return { r with rpos }

/-- `impl SeqRead for Ring` — src/io/ring.rs:98-110, with `consume` of :139. -/
instance : SeqRead Ring where
  asReadPtr r := r.ptr
  readOffset := readOffset
  readLen := readLen
  consume := consume

/-- `impl SeqWrite for Ring` — src/io/ring.rs:112-132. -/
instance : SeqWrite Ring where
  asWritePtr r := r.ptr
  writeOffset := writeOffset
  writeLen := writeLen
  writeCapacity r := r.len
  feed := feed

/-- `Read::read` — src/io/ring.rs:145-147 (never an `Err`). -/
def read (t : Target) (k : Kernel) (r : Ring) (n : Nat) : Exec (Ring × List Byte) :=
  readFrom t k r n

/-- `Write::write` — src/io/ring.rs:151-153 (never an `Err`). -/
def write (t : Target) (k : Kernel) (r : Ring) (buf : List Byte) : Exec (Kernel × Ring × Nat) :=
  writeInto t k r buf

/-- `BufRead::fill_buf` — src/io/ring.rs:135-137; `Deref`/`AsRef` — src/io/ring.rs:160-176. -/
def fillBuf (t : Target) (k : Kernel) (r : Ring) : Exec (List Byte) :=
  readSliceBytes t k r t.usizeMax

/-- `Drop for Ring` — src/io/ring.rs:92-96 (the result is ignored). -/
def drop (t : Target) (k : Kernel) (r : Ring) : Exec Kernel := do
  let (k, _) ← Os.unmapRing t k r.ptr r.len
  return k

end Ring

/-! ### InfiniteRing -/

/-- `struct InfiniteRing` — src/io/ring.rs:219-224. -/
structure InfiniteRing where
  ptr : Nat
  len : Nat
  rlen : Nat
  wpos : Nat
  deriving DecidableEq, Repr

namespace InfiniteRing

/-- `InfiniteRing::new` over posix `map_ring` — src/io/ring.rs:233-242. -/
def new (t : Target) (k : Kernel) (hint : Nat) : Exec (Kernel × Result InfiniteRing) := do
  let len ← (Size.withSize (Unix.systemInfo k).2).round t hint
  let (k, r) ← Posix.mapRing t k len
  match r with
  | .error e => return (k, .error e)
  | .ok ptr => return (k, .ok { ptr, len, rlen := 0, wpos := 0 })

/-- `InfiniteRing::new` on any Unix: as `new`, with the `map_ring` of the system —
src/io/ring.rs:233-242. -/
def make (t : Target) (k : Kernel) (hint : Nat) : Exec (Kernel × Result InfiniteRing) := do
  let len ← (Size.withSize (Unix.systemInfo k).2).round t hint
  let (k, r) ← Os.mapRing t k len
  match r with
  | .error e => return (k, .error e)
  | .ok ptr => return (k, .ok { ptr, len, rlen := 0, wpos := 0 })

/-- `read_offset` — src/io/ring.rs:255-257. -/
def readOffset (t : Target) (r : InfiniteRing) : Exec Nat := do
  let d ← sub64 t r.wpos r.rlen
  modU (asUsize t d) r.len

/-- `read_len` — src/io/ring.rs:258-260. -/
def readLen (t : Target) (r : InfiniteRing) : Exec Nat := .ok (asUsize t r.rlen)

/-- `write_offset` — src/io/ring.rs:267-269. -/
def writeOffset (t : Target) (r : InfiniteRing) : Exec Nat := modU (asUsize t r.wpos) r.len

/-- `write_len` — src/io/ring.rs:270-272. -/
def writeLen (_ : Target) (r : InfiniteRing) : Exec Nat := .ok r.len

/-- `feed` — src/io/ring.rs:276-279. -/
def feed (t : Target) (r : InfiniteRing) (n : Nat) : Exec InfiniteRing := do
  let w ← r.writeLen t
  let wpos ← add64 t r.wpos (asU64 (min n w))
  let s ← add64 t r.rlen (asU64 n)
  return { r with wpos, rlen := min s (asU64 r.len) }

/-- `consume` — src/io/ring.rs:287-289. -/
def consume (t : Target) (r : InfiniteRing) (n : Nat) : Exec InfiniteRing := do
  let m ← r.readLen t
  let rlen ← sub64 t r.rlen (asU64 (min n m))
  return { r with rlen }

/-- `impl SeqRead for InfiniteRing` — src/io/ring.rs:251-261. -/
instance : SeqRead InfiniteRing where
  asReadPtr r := r.ptr
  readOffset := readOffset
  readLen := readLen
  consume := consume

/-- `impl SeqWrite for InfiniteRing` — src/io/ring.rs:263-280. -/
instance : SeqWrite InfiniteRing where
  asWritePtr r := r.ptr
  writeOffset := writeOffset
  writeLen := writeLen
  writeCapacity r := r.len
  feed := feed

/-- `Read::read` — src/io/ring.rs:293-295. -/
def read (t : Target) (k : Kernel) (r : InfiniteRing) (n : Nat) :
    Exec (InfiniteRing × List Byte) := readFrom t k r n

/-- `Write::write` — src/io/ring.rs:299-301. -/
def write (t : Target) (k : Kernel) (r : InfiniteRing) (buf : List Byte) :
    Exec (Kernel × InfiniteRing × Nat) := writeInto t k r buf

/-- `Write::write_all` — src/io/ring.rs:303-313: the last `dst.len()` bytes of `buf`.
`copy_from_slice` panics if the lengths differ. -/
def writeAll (t : Target) (k : Kernel) (r : InfiniteRing) (buf : List Byte) :
    Exec (Kernel × InfiniteRing) := do
  let dst ← asWriteSlice t r buf.length
  let tail ← subU t buf.length dst.2
  let src := buf.drop tail
  if src.length ≠ dst.2 then throw .panic
  let k ← k.storeN dst.1 src
  let r ← r.feed t dst.2
  return (k, r)

/-- `BufRead::fill_buf` — src/io/ring.rs:283-285; `Deref`/`AsRef` — src/io/ring.rs:320-336. -/
def fillBuf (t : Target) (k : Kernel) (r : InfiniteRing) : Exec (List Byte) :=
  readSliceBytes t k r t.usizeMax

/-- `Drop for InfiniteRing` — src/io/ring.rs:245-249. -/
def drop (t : Target) (k : Kernel) (r : InfiniteRing) : Exec Kernel := do
  let (k, _) ← Os.unmapRing t k r.ptr r.len
  return k

end InfiniteRing
end Vmap
