import Verif.Model.Buffer
/-
What users do with a `BufReader` or `BufWriter` beyond its own methods: calls passed on to the
inner object, the provided methods of the standard library's traits, and taking apart the
errors of `into_inner` and `into_parts`.  The loops are those of the Rust standard library
(environment: not code of /repo); every step of a loop is a method of src/io/buffer.rs.
-/
namespace Vmap

namespace BufReader
variable {σ : Type}

/-- A call `f` made on the inner object in place: through `get_mut`, `DerefMut` or `AsMut`
(src/io/buffer.rs:84-87, 110-115, 127-135), or by one of the methods of
`Write for BufReader`, each of which is the same method of the inner object
(src/io/buffer.rs:153-178). -/
def through {α : Type} (f : σ → σ × α) (b : BufReader σ) : BufReader σ × α :=
  let (inner, a) := f b.inner
  ({ b with inner }, a)

/-- `Write::write for BufReader` — src/io/buffer.rs:154-157. -/
def write (W : Writer σ) (b : BufReader σ) (data : List Byte) : BufReader σ × WriteResp :=
  b.through (fun s => W.write s data)

/-- `Write::flush for BufReader` — src/io/buffer.rs:174-177. -/
def flush (W : Writer σ) (b : BufReader σ) : BufReader σ × FlushResp :=
  b.through W.flush

/-- `std::io::Read::read_exact` on a `BufReader` (which does not override it,
src/io/buffer.rs:137-151): at most `fuel` rounds.  `dst`: what the rest of the destination holds;
`acc`: what earlier rounds have put in front of it. -/
def readExact (R : Reader σ) (t : Target) :
    Nat → Kernel → BufReader σ → List Byte → List Byte →
    Exec (Kernel × BufReader σ × List Byte × Out Unit)
  | 0, k, b, acc, _ => return (k, b, acc, .pending)
  | fuel + 1, k, b, acc, dst => do
    if dst.length = 0 then return (k, b, acc, .ok ())
    else
      let (k, b, d, x) ← b.read R t k dst
      match x with
      | .ok 0 => return (k, b, acc, .err (.ofKind .unexpectedEof))
      | .ok n =>
        if d.length < n then throw .panic
        else readExact R t fuel k b (acc ++ d.take n) (d.drop n)
      | .err e =>
        if e.kind = .interrupted then readExact R t fuel k b acc d
        else return (k, b, acc, .err e)
      | .unwound => return (k, b, acc, .unwound)
      | .pending => return (k, b, acc, .pending)

/-- `std::io::BufRead::read_until(delim)` on a `BufReader` (which does not override it,
src/io/buffer.rs:180-192): at most `fuel` rounds.  `acc` is what earlier rounds have appended
to the caller's vector. -/
def readUntil (R : Reader σ) (t : Target) (delim : Byte) :
    Nat → Kernel → BufReader σ → List Byte → Exec (Kernel × BufReader σ × List Byte × Out Unit)
  | 0, k, b, acc => return (k, b, acc, .pending)
  | fuel + 1, k, b, acc => do
    let (k, b, x) ← b.fillBuf R t k
    match x with
    | .ok avail =>
      match avail.idxOf? delim with
      | some i => do
        let b ← b.consume t (i + 1)
        return (k, b, acc ++ avail.take (i + 1), .ok ())
      | none => do
        let b ← b.consume t avail.length
        if avail.length = 0 then return (k, b, acc ++ avail, .ok ())
        else readUntil R t delim fuel k b (acc ++ avail)
    | .err e =>
      if e.kind = .interrupted then readUntil R t delim fuel k b acc
      else return (k, b, acc, .err e)
    | .unwound => return (k, b, acc, .unwound)
    | .pending => return (k, b, acc, .pending)

/-- `std::io::Read::read_to_end` on a `BufReader` (which does not override it,
src/io/buffer.rs:137-151): read into destinations of whatever positive sizes and contents
`dst 0, dst 1, …` the vector's growth offers until a read returns 0; at most `fuel` rounds. -/
def readToEnd (R : Reader σ) (t : Target) :
    Nat → (Nat → List Byte) → Kernel → BufReader σ → List Byte →
    Exec (Kernel × BufReader σ × List Byte × Out Unit)
  | 0, _, k, b, acc => return (k, b, acc, .pending)
  | fuel + 1, dst, k, b, acc => do
    let (k, b, d, x) ← b.read R t k (dst 0)
    match x with
    | .ok 0 => return (k, b, acc, .ok ())
    | .ok n =>
      if d.length < n then throw .panic
      else readToEnd R t fuel (fun i => dst (i + 1)) k b (acc ++ d.take n)
    | .err e =>
      if e.kind = .interrupted then readToEnd R t fuel (fun i => dst (i + 1)) k b acc
      else return (k, b, acc, .err e)
    | .unwound => return (k, b, acc, .unwound)
    | .pending => return (k, b, acc, .pending)

end BufReader

namespace BufWriter
variable {σ : Type}

/-- A call `f` made on the inner object in place: through `get_mut`, `DerefMut` or `AsMut`
(src/io/buffer.rs:253-256, 387-392, 404-412), or by one of the methods of
`Read for BufWriter`, each of which is the same method of the inner object
(src/io/buffer.rs:442-467). -/
def through {α : Type} (f : σ → σ × α) (b : BufWriter σ) : BufWriter σ × α :=
  let (inner, a) := f b.inner
  ({ b with inner }, a)

/-- `Read::read for BufWriter` — src/io/buffer.rs:443-446. -/
def read (R : Reader σ) (b : BufWriter σ) (dst : List Byte) : BufWriter σ × ReadResp :=
  b.through (fun s => R.read s dst)

/-- `std::io::Write::write_all` on a `BufWriter` (which does not override it,
src/io/buffer.rs:422-440): at most `rounds` rounds.  The third component is the part of `data` not
accepted. -/
def writeAll (W : Writer σ) (t : Target) (fuel : Nat) :
    Nat → Kernel → BufWriter σ → List Byte → Exec (Kernel × BufWriter σ × List Byte × Out Unit)
  | 0, k, b, data => return (k, b, data, .pending)
  | rounds + 1, k, b, data => do
    if data.length = 0 then return (k, b, data, .ok ())
    else
      let (k, b, x) ← b.write W t fuel k data
      match x with
      | .ok 0 => return (k, b, data, .err (.ofKind .writeZero))
      | .ok n =>
        if data.length < n then throw .panic
        else writeAll W t fuel rounds k b (data.drop n)
      | .err e =>
        if e.kind = .interrupted then writeAll W t fuel rounds k b data
        else return (k, b, data, .err e)
      | .unwound => return (k, b, data, .unwound)
      | .pending => return (k, b, data, .pending)

/-- `struct IntoInnerError` — src/io/buffer.rs:472. -/
structure IntoInnerError (σ : Type) where
  writer : BufWriter σ
  err : IoError

/-- `into_inner` with its error as a value — src/io/buffer.rs:301-306. -/
def tryInto (W : Writer σ) (t : Target) (fuel : Nat) (k : Kernel) (b : BufWriter σ) :
    Exec (Kernel × Except (IntoInnerError σ) (Out σ)) := do
  let (k, r) ← b.intoInner W t fuel k
  return (k, match r with
    | .ok inner => .ok (.ok inner)
    | .err b e => .error ⟨b, e⟩
    | .unwound _ => .ok .unwound
    | .pending _ => .ok .pending)

namespace IntoInnerError

/-- `IntoInnerError::error` — src/io/buffer.rs:477-479. -/
def error (x : IntoInnerError σ) : IoError := x.err

/-- `IntoInnerError::into_inner` — src/io/buffer.rs:483-485. -/
def intoInner (x : IntoInnerError σ) : BufWriter σ := x.writer

/-- `IntoInnerError::into_error` — src/io/buffer.rs:490-492: the writer is dropped (which flushes
once more). -/
def intoError (W : Writer σ) (t : Target) (fuel : Nat) (k : Kernel) (x : IntoInnerError σ) :
    Exec (Kernel × σ × Out IoError) := do
  let (k, inner, y) ← x.writer.drop W t fuel k
  return (k, inner, match y with
    | .ok () => .ok x.err
    | .err e => .err e
    | .unwound => .unwound
    | .pending => .pending)

/-- `IntoInnerError::into_parts` — src/io/buffer.rs:496-498. -/
def intoParts (x : IntoInnerError σ) : IoError × BufWriter σ := (x.err, x.writer)

end IntoInnerError
end BufWriter
end Vmap
