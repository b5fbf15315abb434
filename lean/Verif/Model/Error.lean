import Verif.Model.Kernel
/-
`vmap::Error`, `Operation`, `Input` — src/error.rs.
-/
namespace Vmap

/-- `std::io::ErrorKind`, as far as the crate distinguishes kinds (`other n` stands for every
remaining kind).  Environment of src/error.rs:212-218. -/
inductive IoKind
  | interrupted
  | writeZero
  | unexpectedEof
  | invalidInput
  | invalidData
  | notFound
  | alreadyExists
  | other (n : Nat)
  deriving DecidableEq, Repr

/-- `std::io::Error`: its kind, the OS code if it wraps one, and its message.
Environment of src/error.rs:55. -/
structure IoError where
  kind : IoKind
  os : Option Nat
  msg : String
  deriving DecidableEq, Repr

/-- `io::Error::new(kind, msg)` (std).  Called at src/error.rs:264. -/
def IoError.new (kind : IoKind) (msg : String) : IoError := ⟨kind, none, msg⟩

/-- `ErrorKind::into::<io::Error>()` (std): no OS code, the kind's description.
Used at src/io/buffer.rs:368. -/
def IoError.ofKind (kind : IoKind) : IoError := ⟨kind, none, ""⟩

/-- `system_error::Error` (external crate): an OS errno or a kernel (mach) return code.
Environment of src/error.rs:57. -/
inductive SysError
  | os (code : Nat)
  | kernel (code : Nat)
  deriving DecidableEq, Repr

/-- What `system_error` and `std` know about OS codes: the kind and message of each.
Environment of src/error.rs:187-218, 285-298. -/
structure SysTable where
  kindOf : SysError → IoKind
  msgOf : SysError → String

/-- `system_error::Error::raw_os_error` (external crate).  Called at src/error.rs:191. -/
def SysError.rawOsError : SysError → Option Nat
  | .os c => some c
  | .kernel _ => none

/-- `impl From<system_error::Error> for io::Error` (external crate): an OS code becomes the
io::Error of that code; a kernel code becomes an error of the same kind and message.
Called at src/error.rs:265. -/
def SysError.toIo (tab : SysTable) (e : SysError) : IoError :=
  ⟨tab.kindOf e, e.rawOsError, tab.msgOf e⟩

/-- `enum Operation` — src/error.rs:310-355. -/
inductive Operation
  | mapFile | mapFileHandle | mapFileView | mapAnonymous | mapAnonymousHandle
  | mapAnonymousView | unmap | protect | advise | lock | unlock | flush | ringAllocate
  | ringDeallocate | ringEntry | ringPrimary | ringSecondary | memoryFd | none
  deriving DecidableEq, Repr

/-- `Operation::as_str` — src/error.rs:374-396. -/
def Operation.asStr : Operation → Option String
  | .mapFile => some "map file"
  | .mapFileHandle => some "map file handle"
  | .mapFileView => some "map file view"
  | .mapAnonymous => some "map anonymous"
  | .mapAnonymousHandle => some "map anonymous handle"
  | .mapAnonymousView => some "map anonymous view"
  | .unmap => some "unmap"
  | .protect => some "protect mapped memory"
  | .advise => some "advise mapped memory"
  | .lock => some "lock mapped memory"
  | .unlock => some "unlock mapped memory"
  | .flush => some "flush mapped memory"
  | .ringAllocate => some "allocate full ring"
  | .ringDeallocate => some "deallocate full ring"
  | .ringEntry => some "make ring memory entry"
  | .ringPrimary => some "map ring first half"
  | .ringSecondary => some "map ring second half"
  | .memoryFd => some "open memory fd"
  | .none => Option.none

/-- `enum Input` — src/error.rs:415-418. -/
inductive Input
  | invalidRange
  deriving DecidableEq, Repr

/-- `Input::as_str` — src/error.rs:437-441. -/
def Input.asStr : Input → String
  | .invalidRange => "invalid range"

/-- `enum Repr` — src/error.rs:54-58. -/
inductive ErrRepr
  | io (e : IoError)
  | input (i : Input)
  | system (s : SysError)
  deriving DecidableEq, Repr

/-- `struct Error` — src/error.rs:49-52. -/
structure Error where
  repr : ErrRepr
  op : Operation
  deriving DecidableEq, Repr

namespace Error

/-- `Error::io` — src/error.rs:76-81. -/
def io (op : Operation) (e : IoError) : Error := ⟨.io e, op⟩
/-- `Error::input` — src/error.rs:98-103. -/
def input (op : Operation) (i : Input) : Error := ⟨.input i, op⟩
/-- `Error::system` — src/error.rs:121-126. -/
def system (op : Operation) (s : SysError) : Error := ⟨.system s, op⟩
/-- `Error::kernel` — src/error.rs:143-145. -/
def kernel (op : Operation) (code : Nat) : Error := system op (.kernel code)
/-- `Error::last_os_error` — src/error.rs:160-162; `errno` is the thread's errno, i.e. the
one of the system call that just failed. -/
def lastOsError (op : Operation) (errno : Errno) : Error := system op (.os errno)

/-- `Error::raw_os_error` — src/error.rs:187-193. -/
def rawOsError (e : Error) : Option Nat :=
  match e.repr with
  | .io err => err.os
  | .input _ => Option.none
  | .system err => err.rawOsError

/-- `Error::kind` — src/error.rs:212-218. -/
def kind (tab : SysTable) (e : Error) : IoKind :=
  match e.repr with
  | .io err => err.kind
  | .input _ => .invalidInput
  | .system err => tab.kindOf err

/-- `Error::operation` — src/error.rs:236-238. -/
def operation (e : Error) : Operation := e.op

/-- `std::error::Error::source` — src/error.rs:242-248. -/
def source (e : Error) : Option IoError :=
  match e.repr with
  | .io err => some err
  | .input _ => Option.none
  | .system _ => Option.none

/-- `impl From<io::Error> for Error` — src/error.rs:251-258. -/
def ofIo (e : IoError) : Error := ⟨.io e, .none⟩

/-- `impl From<Error> for io::Error` — src/error.rs:260-268. -/
def toIo (tab : SysTable) (e : Error) : IoError :=
  match e.repr with
  | .io io => io
  | .input v => IoError.new .invalidInput v.asStr
  | .system sys => sys.toIo tab

/-- `impl<F> From<(Error, F)> for Error` — src/error.rs:19-28. -/
def ofConvert {F : Type} (v : Error × F) : Error := v.1

/-- `impl Display for Error` — src/error.rs:285-298. -/
def display (tab : SysTable) (e : Error) : String :=
  let value := match e.repr with
    | .io err => err.msg
    | .input i => i.asStr
    | .system s => tab.msgOf s
  match e.op.asStr with
  | some op => "failed to " ++ op ++ ", " ++ value
  | Option.none => value

end Error

/-- `vmap::Result<T>` — src/error.rs:6. -/
abbrev Result (α : Type) := Except Error α

/-- `vmap::ConvertResult<T, F>` — src/error.rs:17. -/
abbrev ConvertResult (α β : Type) := Except (Error × β) α

/-- `io::Result<T>` (std).  Used throughout src/io/. -/
abbrev IoResult (α : Type) := Except IoError α

end Vmap
