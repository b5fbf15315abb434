import Verif.Model.RingStd
import Verif.Model.BufferStd
/-
Reading a ring or a `BufReader` piece by piece (`BufRead::read_line`, `split`, `lines`) and
writing formatted text into a ring (`write!`).  These are provided methods of the Rust standard
library (environment: not code of /repo, which overrides none of them); every step is a method of
src/io/ring.rs or src/io/buffer.rs.  The crate's documentation uses them at src/io/ring.rs:19-49
and 168-182.
-/
namespace Vmap

/-- std's error for text that is not UTF-8 (`Error::INVALID_UTF8`).  Environment of
src/io/ring.rs:134-142. -/
def notText : IoError := .new .invalidData "stream did not contain valid UTF-8"

/-- What `Lines` removes from the end of a line (std): `\n`, and a `\r` before it.  Environment of
src/io/ring.rs:134-142. -/
def chomp (line : List Byte) : List Byte :=
  if line.getLast? = some 10 then
    if line.dropLast.getLast? = some 13 then line.dropLast.dropLast else line.dropLast
  else line

/-- What `Split` removes from the end of a piece (std): the delimiter.  Environment of
src/io/ring.rs:134-142. -/
def unsplit (d : Byte) (piece : List Byte) : List Byte :=
  if piece.getLast? = some d then piece.dropLast else piece

/-! ### Rings -/

/-- `BufRead::read_until(d)` on an `InfiniteRing`: the appended bytes; as `Ring.readUntil`.
Over src/io/ring.rs:282-290. -/
def InfiniteRing.readUntil (t : Target) (k : Kernel) (d : Byte) :
    Nat → InfiniteRing → List Byte → Exec (Option (InfiniteRing × List Byte))
  | 0, _, _ => .ok none
  | fuel + 1, r, acc => do
    let avail ← r.fillBuf t k
    match avail.idxOf? d with
    | some i => do
      let r ← r.consume t (i + 1)
      return some (r, acc ++ avail.take (i + 1))
    | none => do
      let r ← r.consume t avail.length
      if avail.length = 0 then return some (r, acc ++ avail)
      else readUntil t k d fuel r (acc ++ avail)

section
variable {ρ : Type}

/-- `BufRead::read_line` on a ring whose `read_until('\n')` is `ru`: the contents of the caller's
string afterwards (`line` before) and the result.  `valid` tells which bytes are UTF-8 (any function).
If the bytes read are not, they are dropped.  Over src/io/ring.rs:134-142 and 282-290. -/
def readLine (ru : ρ → Exec (Option (ρ × List Byte))) (valid : List Byte → Bool) (r : ρ)
    (line : List Byte) : Exec (Option (ρ × List Byte × IoResult Nat)) := do
  match ← ru r with
  | none => return none
  | some (r, got) =>
    if valid got then return some (r, line ++ got, .ok got.length)
    else return some (r, line, .error notText)

/-- One call of `Split::next` (std) on a ring whose `read_until(d)` is `ru`.
Over src/io/ring.rs:134-142 and 282-290. -/
def splitNext (ru : ρ → Exec (Option (ρ × List Byte))) (d : Byte) (r : ρ) :
    Exec (Option (ρ × Option (List Byte))) := do
  match ← ru r with
  | none => return none
  | some (r, got) =>
    if got.length = 0 then return some (r, none)
    else return some (r, some (unsplit d got))

/-- One call of `Lines::next` (std) on a ring whose `read_until('\n')` is `ru`.
Over src/io/ring.rs:134-142 and 282-290. -/
def linesNext (ru : ρ → Exec (Option (ρ × List Byte))) (valid : List Byte → Bool) (r : ρ) :
    Exec (Option (ρ × Option (IoResult (List Byte)))) := do
  match ← readLine ru valid r [] with
  | none => return none
  | some (r, line, .ok n) =>
    if n = 0 then return some (r, none)
    else return some (r, some (.ok (chomp line)))
  | some (r, _, .error e) => return some (r, some (.error e))

/-- Collect what an iterator over a ring yields; `none`: not finished after `steps` items.
Over src/io/ring.rs:134-142 and 282-290. -/
def collect {α : Type} (next : ρ → Exec (Option (ρ × Option α))) :
    Nat → ρ → Exec (Option (ρ × List α))
  | 0, _ => .ok none
  | steps + 1, r => do
    match ← next r with
    | none => return none
    | some (r, none) => return some (r, [])
    | some (r, some x) =>
      match ← collect next steps r with
      | none => return none
      | some (r, xs) => return some (r, x :: xs)

end

/-- `write!` (`Write::write_fmt`, std) on a `Ring`: `write_all` of one piece of the formatted text
after the other, up to the first error.  Over src/io/ring.rs:150-158. -/
def Ring.writeFmt (t : Target) : Kernel → Ring → List (List Byte) →
    Exec ((Kernel × Ring) × IoResult Unit)
  | k, r, [] => return ((k, r), .ok ())
  | k, r, p :: ps => do
    match ← r.writeAll t k p with
    | ((k, r), .ok ()) => writeFmt t k r ps
    | ((k, r), .error e) => return ((k, r), .error e)

/-- `write!` on an `InfiniteRing`, whose `write_all` (src/io/ring.rs:303-313) never fails. -/
def InfiniteRing.writeFmt (t : Target) : Kernel → InfiniteRing → List (List Byte) →
    Exec (Kernel × InfiniteRing)
  | k, r, [] => return (k, r)
  | k, r, p :: ps => do
    let (k, r) ← r.writeAll t k p
    writeFmt t k r ps

/-! ### Buffered readers -/

namespace BufReader
variable {σ : Type}

/-- `BufRead::read_line` on a `BufReader` (which does not override it, src/io/buffer.rs:180-192):
the contents of the caller's string afterwards and the result.  An error of the inner reader leaves
in the string what was read before it; text that is not UTF-8 is dropped, and turns success
into `INVALID_UTF8`.  When the reader panics, the guard truncates the string. -/
def readLine (R : Reader σ) (t : Target) (valid : List Byte → Bool) (fuel : Nat) (k : Kernel)
    (b : BufReader σ) (line : List Byte) : Exec (Kernel × BufReader σ × List Byte × Out Nat) := do
  let (k, b, got, x) ← b.readUntil R t 10 fuel k []
  match x with
  | .ok () =>
    if valid got then return (k, b, line ++ got, .ok got.length)
    else return (k, b, line, .err notText)
  | .err e => return (k, b, if valid got then line ++ got else line, .err e)
  | .unwound => return (k, b, line, .unwound)
  | .pending => return (k, b, line ++ got, .pending)

/-- One call of `Split::next` (std) on a `BufReader`, over src/io/buffer.rs:180-192.  What was read
before an error is dropped. -/
def splitNext (R : Reader σ) (t : Target) (d : Byte) (fuel : Nat) (k : Kernel) (b : BufReader σ) :
    Exec (Kernel × BufReader σ × Out (Option (IoResult (List Byte)))) := do
  let (k, b, got, x) ← b.readUntil R t d fuel k []
  match x with
  | .ok () =>
    if got.length = 0 then return (k, b, .ok none)
    else return (k, b, .ok (some (.ok (unsplit d got))))
  | .err e => return (k, b, .ok (some (.error e)))
  | .unwound => return (k, b, .unwound)
  | .pending => return (k, b, .pending)

/-- One call of `Lines::next` (std) on a `BufReader`, over src/io/buffer.rs:180-192.  What was read
before an error is dropped. -/
def linesNext (R : Reader σ) (t : Target) (valid : List Byte → Bool) (fuel : Nat) (k : Kernel)
    (b : BufReader σ) : Exec (Kernel × BufReader σ × Out (Option (IoResult (List Byte)))) := do
  let (k, b, line, x) ← b.readLine R t valid fuel k []
  match x with
  | .ok n =>
    if n = 0 then return (k, b, .ok none)
    else return (k, b, .ok (some (.ok (chomp line))))
  | .err e => return (k, b, .ok (some (.error e)))
  | .unwound => return (k, b, .unwound)
  | .pending => return (k, b, .pending)

/-- Collect what an iterator over a `BufReader` yields, going on after errors as a `for` loop does;
at most `steps` items.  Over src/io/buffer.rs:180-192. -/
def collect {α : Type} (next : Kernel → BufReader σ → Exec (Kernel × BufReader σ × Out (Option α))) :
    Nat → Kernel → BufReader σ → Exec (Kernel × BufReader σ × List α × Out Unit)
  | 0, k, b => return (k, b, [], .pending)
  | steps + 1, k, b => do
    let (k, b, x) ← next k b
    match x with
    | .ok none => return (k, b, [], .ok ())
    | .ok (some a) => do
      let (k, b, as, y) ← collect next steps k b
      return (k, b, a :: as, y)
    | .err e => return (k, b, [], .err e)
    | .unwound => return (k, b, [], .unwound)
    | .pending => return (k, b, [], .pending)

end BufReader
end Vmap
