/-
Machine integers, build profiles, panics and memory faults.

Models the Rust language semantics that every file of /repo/src relies on; no
single source line.  `usize` and `u64` values are `Nat`s; the arithmetic below is
where their bounds are enforced.
-/
namespace Vmap

/-- Width of `usize`.  vmap targets 32- and 64-bit hosts (src/os/windows.rs:49 splits a
`usize` with `>> 16 >> 16` precisely so that it also compiles on 32-bit hosts). -/
inductive Width
  | w32
  | w64
  deriving DecidableEq, Repr

/-- `usize::BITS`.  For every `usize` in src/. -/
def Width.bits : Width → Nat
  | .w32 => 32
  | .w64 => 64

/-- A compilation target: `usize` width and whether integer overflow checks are on
(`debug` profile: on, overflow panics; `release` profile: off, overflow wraps).
For every `usize` operation in src/. -/
structure Target where
  width : Width
  checks : Bool
  deriving DecidableEq, Repr

/-- Number of `usize` values; `usize::MAX = t.lim - 1`.  For every `usize` in src/. -/
def Target.lim (t : Target) : Nat := 2 ^ t.width.bits

/-- Number of `u64` values.  For the `u64`s of src/io/ring.rs:58-63, 219-224. -/
def lim64 : Nat := 2 ^ 64

/-- Ways in which a call can fail to return normally.
`panic` is a Rust panic; `memory` is an access to an address that is not mapped or not
permitted (SIGSEGV/SIGBUS, or undefined behaviour).  For every function in src/. -/
inductive Fault
  | panic
  | memory
  deriving DecidableEq, Repr

/-- Result of running code: a value, a panic, or a memory fault.  For every function in src/. -/
abbrev Exec (α : Type) := Except Fault α

/-- Outcomes can be compared (used only by concrete examples). -/
instance {ε α : Type} [DecidableEq ε] [DecidableEq α] : DecidableEq (Except ε α)
  | .ok a, .ok b => if h : a = b then isTrue (h ▸ rfl) else isFalse (fun e => h (Except.ok.inj e))
  | .error a, .error b =>
    if h : a = b then isTrue (h ▸ rfl) else isFalse (fun e => h (Except.error.inj e))
  | .ok _, .error _ => isFalse (fun e => nomatch e)
  | .error _, .ok _ => isFalse (fun e => nomatch e)

/-- Rust `a + b` on an unsigned type with `lim` values.  E.g. src/lib.rs:366. -/
def addL (checks : Bool) (lim a b : Nat) : Exec Nat :=
  if a + b < lim then .ok (a + b)
  else if checks then .error .panic
  else .ok ((a + b) % lim)

/-- Rust `a - b` on an unsigned type with `lim` values.  E.g. src/lib.rs:366. -/
def subL (checks : Bool) (lim a b : Nat) : Exec Nat :=
  if b ≤ a then .ok (a - b)
  else if checks then .error .panic
  else .ok ((a + lim - b) % lim)

/-- Rust `a * b` on an unsigned type with `lim` values.  E.g. src/os/unix/posix/mod.rs:38,88. -/
def mulL (checks : Bool) (lim a b : Nat) : Exec Nat :=
  if a * b < lim then .ok (a * b)
  else if checks then .error .panic
  else .ok ((a * b) % lim)

/-- `a + b : usize`.  E.g. src/lib.rs:366,601, src/map.rs:313. -/
def addU (t : Target) (a b : Nat) : Exec Nat := addL t.checks t.lim a b
/-- `a - b : usize`.  E.g. src/lib.rs:386, src/map.rs:1211. -/
def subU (t : Target) (a b : Nat) : Exec Nat := subL t.checks t.lim a b
/-- `a * b : usize`.  E.g. src/os/unix/posix/mod.rs:38,88. -/
def mulU (t : Target) (a b : Nat) : Exec Nat := mulL t.checks t.lim a b
/-- `a + b : u64`.  E.g. src/io/ring.rs:130,140,277. -/
def add64 (t : Target) (a b : Nat) : Exec Nat := addL t.checks lim64 a b
/-- `a - b : u64`.  E.g. src/io/ring.rs:108,256,288. -/
def sub64 (t : Target) (a b : Nat) : Exec Nat := subL t.checks lim64 a b

/-- `a % b : usize`; a zero divisor panics in every profile.  E.g. src/io/ring.rs:104,118. -/
def modU (a b : Nat) : Exec Nat :=
  if b = 0 then .error .panic else .ok (a % b)

/-- `x as usize` for a `u64`/`u128`-range value: keep the low bits.
E.g. src/io/ring.rs:104,108, src/map.rs:1184. -/
def asUsize (t : Target) (x : Nat) : Nat := x % t.lim

/-- `x as u64` for a `usize`: lossless, as `usize` has at most 64 bits.
E.g. src/io/ring.rs:130, src/map.rs:1186. -/
def asU64 (x : Nat) : Nat := x % lim64

/-- `x as u32`.  E.g. src/lib.rs:443, src/os/unix/mod.rs:33. -/
def asU32 (x : Nat) : Nat := x % 2 ^ 32

/-- `!x : usize` (bitwise complement).  src/lib.rs:386. -/
def notU (t : Target) (x : Nat) : Nat := t.lim - 1 - x

/-- `a << k : usize`.  Bits shifted out are lost silently; only a shift amount of at
least the width panics (debug) or is masked (release).  src/lib.rs:422. -/
def shlU (t : Target) (a k : Nat) : Exec Nat :=
  if k < t.width.bits then .ok ((a <<< k) % t.lim)
  else if t.checks then .error .panic
  else .ok ((a <<< (k % t.width.bits)) % t.lim)

/-- `a >> k : usize`.  E.g. src/lib.rs:443, src/os/windows.rs:38. -/
def shrU (t : Target) (a k : Nat) : Exec Nat :=
  if k < t.width.bits then .ok (a >>> k)
  else if t.checks then .error .panic
  else .ok (a >>> (k % t.width.bits))

/-- Trailing zeros of `n`, giving up after `fuel` bits.  src/lib.rs:422,443. -/
def tzAux : Nat → Nat → Nat
  | 0, _ => 0
  | fuel + 1, n => if n % 2 = 1 then 0 else tzAux fuel (n / 2) + 1

/-- `usize::trailing_zeros` (`BITS` for zero).  src/lib.rs:422,443. -/
def trailingZeros (t : Target) (n : Nat) : Nat := tzAux t.width.bits n

/-- `usize::MAX`.  E.g. src/io/buffer.rs:92. -/
def Target.usizeMax (t : Target) : Nat := t.lim - 1

end Vmap
