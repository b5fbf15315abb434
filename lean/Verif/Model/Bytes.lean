import Verif.Model.RingStd
/-
More provided methods of `bytes::Buf` and `bytes::BufMut` on a `Ring`: numbers, fills, copies to
`Bytes`, one ring into another, and the `reader()`/`writer()` adapters.  The bodies are those of
the `bytes` crate (environment: not code of /repo); every step is a method of src/io/bytes.rs.
-/
namespace Vmap

/-- The last `w` bytes of `v.to_be_bytes()` (std; all of them for a type of `w` bytes).  What
`put_u8` … `put_u128`, `put_i8` … and `put_uint` pass to `put_slice` over src/io/bytes.rs:23-38. -/
def beBytes : Nat → Nat → List Byte
  | 0, _ => []
  | w + 1, v => beBytes w (v / 256) ++ [UInt8.ofNat (v % 256)]

/-- `to_be_bytes`, or `to_le_bytes` for the `_le` methods; see `beBytes`
(over src/io/bytes.rs:23-38). -/
def numBytes (little : Bool) (w v : Nat) : List Byte :=
  if little then (beBytes w v).reverse else beBytes w v

/-- `from_be_bytes` (std), used by `get_u8` … `get_u128` and `get_uint` over
src/io/bytes.rs:9-21. -/
def beValue (bs : List Byte) : Nat := bs.foldl (fun a b => a * 256 + b.toNat) 0

/-- `from_be_bytes`, or `from_le_bytes` for the `_le` methods (over src/io/bytes.rs:9-21). -/
def numValue (little : Bool) (bs : List Byte) : Nat :=
  beValue (if little then bs.reverse else bs)

/-- The bit pattern of a signed number of `w` bytes (`as` casts of std; `put_i8` … `put_i128` over
src/io/bytes.rs:23-38). -/
def bitsOf (w : Nat) (v : Int) : Nat := (v % (256 ^ w : Nat)).toNat

/-- The signed number of `w` bytes with a bit pattern (`get_i8` … `get_i128` over
src/io/bytes.rs:9-21). -/
def signedOf (w : Nat) (u : Nat) : Int := if 2 * u < 256 ^ w then u else (u : Int) - (256 ^ w : Nat)

namespace Ring

/-- `put_u8` … `put_u128`, `put_u16_le` …, `put_uint(v, w)`: `put_slice` of the bytes.
Over src/io/bytes.rs:23-38. -/
def putNum (t : Target) (fuel : Nat) (k : Kernel) (r : Ring) (little : Bool) (w v : Nat) :
    Exec (Option (Kernel × Ring)) :=
  r.putSlice t fuel k (numBytes little w v)

/-- `get_u8` … `get_u128`, `get_u16_le` …: from the chunk if it is long enough, else
`copy_to_slice`.  `get_uint(w)`, which always copies, gives the same.  Over src/io/bytes.rs:9-21. -/
def getNum (t : Target) (k : Kernel) (fuel : Nat) (r : Ring) (little : Bool) (w : Nat) :
    Exec (Option (Ring × Nat)) := do
  let c ← r.chunk t k
  if w ≤ c.length then do
    let r ← r.advance t w
    return some (r, numValue little (c.take w))
  else
    match ← r.copyToSlice t k fuel w with
    | none => return none
    | some (r, bs) => return some (r, numValue little bs)

/-- `put_i8` … `put_i128` and the `_le` methods.  Over src/io/bytes.rs:23-38. -/
def putInt (t : Target) (fuel : Nat) (k : Kernel) (r : Ring) (little : Bool) (w : Nat) (v : Int) :
    Exec (Option (Kernel × Ring)) :=
  r.putNum t fuel k little w (bitsOf w v)

/-- `get_i8` … `get_i128` and the `_le` methods.  Over src/io/bytes.rs:9-21. -/
def getInt (t : Target) (k : Kernel) (fuel : Nat) (r : Ring) (little : Bool) (w : Nat) :
    Exec (Option (Ring × Int)) := do
  match ← r.getNum t k fuel little w with
  | none => return none
  | some (r, u) => return some (r, signedOf w u)

/-- A program that puts numbers one after the other: endianness, width and value of each.
Uses of src/io/bytes.rs:23-38. -/
def putNums (t : Target) (fuel : Nat) :
    Kernel → Ring → List (Bool × Nat × Nat) → Exec (Option (Kernel × Ring))
  | k, r, [] => .ok (some (k, r))
  | k, r, (little, w, v) :: xs => do
    match ← r.putNum t fuel k little w v with
    | none => return none
    | some (k, r) => putNums t fuel k r xs

/-- A program that gets numbers one after the other.  Uses of src/io/bytes.rs:9-21. -/
def getNums (t : Target) (k : Kernel) (fuel : Nat) :
    Ring → List (Bool × Nat) → Exec (Option (Ring × List Nat))
  | r, [] => .ok (some (r, []))
  | r, (little, w) :: xs => do
    match ← r.getNum t k fuel little w with
    | none => return none
    | some (r, v) =>
      match ← getNums t k fuel r xs with
      | none => return none
      | some (r, vs) => return some (r, v :: vs)

/-- The loop of `BufMut::put_bytes`.  Over src/io/bytes.rs:23-38. -/
def fillLoop (t : Target) (b : Byte) : Nat → Kernel → Ring → Nat → Exec (Option (Kernel × Ring))
  | _, k, r, 0 => .ok (some (k, r))
  | 0, _, _, _ + 1 => .ok none
  | fuel + 1, k, r, n + 1 => do
    let c ← r.chunkMut t
    let cnt := min c.2 (n + 1)
    let k ← k.storeN c.1 (List.replicate cnt b)
    let r ← r.advanceMut t cnt
    fillLoop t b fuel k r (n + 1 - cnt)

/-- `BufMut::put_bytes(b, n)`: panics if they do not fit.  Over src/io/bytes.rs:23-38. -/
def putBytes (t : Target) (fuel : Nat) (k : Kernel) (r : Ring) (b : Byte) (n : Nat) :
    Exec (Option (Kernel × Ring)) := do
  let m ← r.remainingMut t
  if m < n then throw .panic
  fillLoop t b fuel k r n

/-- The loop of `BytesMut::put(ring.take(n))`: chunks of the ring cut at the limit, each advanced
over.  Over src/io/bytes.rs:9-21. -/
def takeLoop (t : Target) (k : Kernel) :
    Nat → Ring → Nat → List Byte → Exec (Option (Ring × List Byte))
  | 0, _, _, _ => .ok none
  | fuel + 1, r, n, acc => do
    let m ← r.remaining t
    if min m n = 0 then return some (r, acc)
    let c ← r.chunk t k
    let cnt := min c.length n
    let r ← r.advance t cnt
    takeLoop t k fuel r (n - cnt) (acc ++ c.take cnt)

/-- `Buf::copy_to_bytes(n)`: panics if fewer remain.  Over src/io/bytes.rs:9-21. -/
def copyToBytes (t : Target) (k : Kernel) (fuel : Nat) (r : Ring) (n : Nat) :
    Exec (Option (Ring × List Byte)) := do
  let m ← r.remaining t
  if m < n then throw .panic
  takeLoop t k fuel r n []

/-- `Buf::chunks_vectored` into `m` slices: the chunk, if there is room for a slice and anything to
read.  Over src/io/bytes.rs:9-21. -/
def chunksVectored (t : Target) (k : Kernel) (r : Ring) (m : Nat) : Exec (List (List Byte)) := do
  if m = 0 then return []
  let n ← r.remaining t
  if n = 0 then return []
  let c ← r.chunk t k
  return [c]

/-- The loop of `BufMut::put(&mut src)` where the source is a ring too: chunk to chunk.
Over src/io/bytes.rs:9-38. -/
def putRingLoop (t : Target) : Nat → Kernel → Ring → Ring → Exec (Option (Kernel × Ring × Ring))
  | 0, _, _, _ => .ok none
  | fuel + 1, k, d, s => do
    let m ← s.remaining t
    if m = 0 then return some (k, d, s)
    let c ← s.chunk t k
    let a ← d.chunkMut t
    let cnt := min c.length a.2
    let k ← k.storeN a.1 (c.take cnt)
    let d ← d.advanceMut t cnt
    let s ← s.advance t cnt
    putRingLoop t fuel k d s

/-- `BufMut::put(&mut src)` where the source is a ring too: panics if it does not fit.
Over src/io/bytes.rs:9-38. -/
def putRing (t : Target) (fuel : Nat) (k : Kernel) (d s : Ring) :
    Exec (Option (Kernel × Ring × Ring)) := do
  let a ← d.remainingMut t
  let b ← s.remaining t
  if a < b then throw .panic
  putRingLoop t fuel k d s

/-- `read` of `Buf::reader()` into `n` bytes.  Over src/io/bytes.rs:9-21. -/
def readerRead (t : Target) (k : Kernel) (fuel : Nat) (r : Ring) (n : Nat) :
    Exec (Option (Ring × List Byte)) := do
  let m ← r.remaining t
  r.copyToSlice t k fuel (min m n)

/-- `write` of `BufMut::writer()`.  Over src/io/bytes.rs:23-38. -/
def writerWrite (t : Target) (fuel : Nat) (k : Kernel) (r : Ring) (src : List Byte) :
    Exec (Option (Kernel × Ring × Nat)) := do
  let m ← r.remainingMut t
  let n := min m src.length
  match ← r.putSlice t fuel k (src.take n) with
  | none => return none
  | some (k, r) => return some (k, r, n)

end Ring
end Vmap
