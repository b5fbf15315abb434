import Verif.Model.Views
import Verif.Model.Buffer
/-
The texts the crate prints for its own types (`Display` and `Debug`).
-/
namespace Vmap

/-- The fields of a struct as `Formatter::debug_struct` (std) prints them with `{:?}`.
Environment of src/error.rs:277-281. -/
def debugFields : List (String × String) → String
  | [] => ""
  | [f] => f.1 ++ ": " ++ f.2
  | f :: fs => f.1 ++ ": " ++ f.2 ++ ", " ++ debugFields fs

/-- `Formatter::debug_struct(name).field(..)...finish()` (std), printed with `{:?}`.
Called at src/error.rs:277-281, src/map.rs:187-190, src/io/buffer.rs:522-527. -/
def debugStruct (name : String) (fields : List (String × String)) : String :=
  name ++ " { " ++ debugFields fields ++ " }"

/-- What std and `system_error` print with `{:?}` for their own types.
Environment of src/error.rs:270-283. -/
structure DebugTable where
  kind : IoKind → String
  io : IoError → String
  sys : SysError → String

/-- `#[derive(Debug)]` for `Operation` — src/error.rs:310. -/
def Operation.debug : Operation → String
  | .mapFile => "MapFile"
  | .mapFileHandle => "MapFileHandle"
  | .mapFileView => "MapFileView"
  | .mapAnonymous => "MapAnonymous"
  | .mapAnonymousHandle => "MapAnonymousHandle"
  | .mapAnonymousView => "MapAnonymousView"
  | .unmap => "Unmap"
  | .protect => "Protect"
  | .advise => "Advise"
  | .lock => "Lock"
  | .unlock => "Unlock"
  | .flush => "Flush"
  | .ringAllocate => "RingAllocate"
  | .ringDeallocate => "RingDeallocate"
  | .ringEntry => "RingEntry"
  | .ringPrimary => "RingPrimary"
  | .ringSecondary => "RingSecondary"
  | .memoryFd => "MemoryFd"
  | .none => "None"

/-- `#[derive(Debug)]` for `Input` — src/error.rs:413. -/
def Input.debug : Input → String
  | .invalidRange => "InvalidRange"

/-- `impl Display for Operation` — src/error.rs:399-403. -/
def Operation.display (op : Operation) : String := op.asStr.getD ""

/-- `impl Display for Input` — src/error.rs:444-448. -/
def Input.display (i : Input) : String := i.asStr

/-- `impl Debug for Error` — src/error.rs:270-283. -/
def Error.debug (tab : SysTable) (d : DebugTable) (e : Error) : String :=
  let (field, value) := match e.repr with
    | .io err => ("io", d.io err)
    | .input input => ("input", input.debug)
    | .system err => ("system", d.sys err)
  debugStruct "Error" [("op", e.op.debug), ("kind", d.kind (e.kind tab)), (field, value)]

/-- A pointer printed with `{:?}` (std): `0x` and lower-case hexadecimal digits.
Environment of src/map.rs:188. -/
def debugPtr (p : Nat) : String := "0x" ++ String.ofList (Nat.toDigits 16 p)

/-- `impl Debug for Map` — src/map.rs:185-192. -/
def Map.debug (m : Map) : String :=
  debugStruct "Map" [("ptr", debugPtr m.inner.ptr), ("len", m.inner.len.repr)]

/-- `#[derive(Debug)]` for `MapMut` — src/map.rs:195. -/
def MapMut.debug (m : MapMut) : String :=
  debugStruct "MapMut" [("ptr", debugPtr m.ptr), ("len", m.len.repr)]

/-- `struct WriterPanicked(Ring)` — src/io/buffer.rs:503. -/
structure WriterPanicked where
  ring : Ring

namespace WriterPanicked

/-- `WriterPanicked::into_inner` — src/io/buffer.rs:507-509. -/
def intoInner (x : WriterPanicked) : Ring := x.ring

/-- `impl Display for WriterPanicked` — src/io/buffer.rs:511, 514-518. -/
def display (_ : WriterPanicked) : String := "writer panicked, unwritten data may remain"

/-- `impl Debug for WriterPanicked` — src/io/buffer.rs:520-529. -/
def debug (t : Target) (x : WriterPanicked) : Exec String := do
  let l ← x.ring.writeLen t
  return debugStruct "WriterPanicked" [("buffer", l.repr ++ "/" ++ (SeqWrite.writeCapacity x.ring).repr)]

end WriterPanicked

/-- `BufWriter::into_parts`' second component as Rust has it — src/io/buffer.rs:345-349. -/
def BufWriter.ringOrPanicked {σ : Type} (b : BufWriter σ) : Except WriterPanicked Ring :=
  if b.panicked then .error ⟨b.buf⟩ else .ok b.buf

end Vmap
