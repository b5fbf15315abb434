import Verif.Model.Error
/-
`std::fs::{File, OpenOptions}` as src/map.rs uses them.

ENVIRONMENT MODEL (trusted base): the standard library on unix and the `open`,
`ftruncate64` system calls.  std repeats `open` and `ftruncate64` while they fail with
EINTR; here a call's outcome is that of the last repetition.
-/
namespace Vmap

/-- The fields of `std::fs::OpenOptions` that src/map.rs:517-712 sets. -/
structure OpenOptions where
  read : Bool := false
  write : Bool := false
  truncate : Bool := false
  create : Bool := false
  createNew : Bool := false
  deriving DecidableEq, Repr

namespace Kernel

/-- Hand out the next descriptor for object `o`.  Environment of src/map.rs:1068,1109. -/
def addFd (k : Kernel) (o : Obj) (canWrite : Bool) : Sys Nat :=
  ({ k with
      fds := fun d => if d = k.nextFd then some ⟨o, true, canWrite⟩ else k.fds d
      nextFd := k.nextFd + 1 },
    .ok k.nextFd)

/-- Enter the file name `path` for a new empty object.  Environment of src/map.rs:1068,1109. -/
def newFile (k : Kernel) (path : String) : Kernel :=
  { (k.newObj 0) with names := fun n => if n = path then some k.fresh else k.names n }

/-- `open(path, O_RDONLY/O_RDWR | O_CREAT? | O_EXCL? | O_TRUNC?)`.  The path is a plain name;
permission checks and every other reason to fail are the oracle's.
Environment of src/map.rs:1068,1109. -/
def openCore (k : Kernel) (path : String) (write creat excl trunc : Bool) : Sys Nat :=
  let c := k.now
  let k := k.tock
  if !c.ok then (k, .error c.errno)
  else match k.names path with
    | some o =>
      if creat && excl then (k, .error EEXIST)
      else if trunc then (k.resizeObj o 0).addFd o write
      else k.addFd o write
    | none =>
      if creat then (k.newFile path).addFd k.fresh write
      else (k, .error ENOENT)

/-- `open`, recorded in the log.  Environment of src/map.rs:1068,1109. -/
def openFile (k : Kernel) (path : String) (write creat excl trunc : Bool) : Sys Nat :=
  record (.open path) id (openCore k path write creat excl trunc)

/-- `ftruncate64(fd, len)`: a 64-bit length on every target; negative from `2^63` on.
Environment of src/map.rs:1186. -/
def ftruncate64Core (k : Kernel) (fd len : Nat) : Sys Unit :=
  let c := k.now
  let k := k.tock
  match k.fds fd with
  | none => (k, .error EBADF)
  | some f =>
    if !f.canWrite || lim64 / 2 ≤ len then (k, .error EINVAL)
    else if !c.ok then (k, .error c.errno)
    else (k.resizeObj f.obj len, .ok ())

/-- `ftruncate64`, recorded in the log.  Environment of src/map.rs:1186. -/
def ftruncate64 (k : Kernel) (fd len : Nat) : Sys Unit :=
  record (.ftruncate fd len) (fun _ => 0) (ftruncate64Core k fd len)

end Kernel

/-- A system call's result as an `io::Result` (std: `io::Error::last_os_error()`).
Environment of src/map.rs:1068,1109,1184,1186. -/
def ioErr {α : Type} (tab : SysTable) (r : Sys α) : Kernel × IoResult α :=
  match r with
  | (k, .ok a) => (k, .ok a)
  | (k, .error e) => (k, .error (SysError.toIo tab (.os e)))

/-- `OpenOptions::open` (std, unix): options that ask for creation or truncation without write
access are refused with EINVAL before any system call; `create_new` overrides `create` and
`truncate`.  (src/map.rs always sets `read`, never `append`.) -/
def OpenOptions.open (tab : SysTable) (k : Kernel) (o : OpenOptions) (path : String) :
    Kernel × IoResult Nat :=
  if !o.write && (o.truncate || o.create || o.createNew) then
    (k, .error (SysError.toIo tab (.os EINVAL)))
  else if o.createNew then ioErr tab (k.openFile path o.write true true false)
  else ioErr tab (k.openFile path o.write o.create false o.truncate)

namespace File

/-- `File::metadata()?.len()` (std).  Called at src/map.rs:1184. -/
def len (tab : SysTable) (k : Kernel) (fd : Nat) : Kernel × IoResult Nat :=
  ioErr tab (k.fstatLen fd)

/-- `File::set_len` (std, unix): a length that is no `off64_t` is refused before any system
call.  Called at src/map.rs:1186. -/
def setLen (tab : SysTable) (k : Kernel) (fd size : Nat) : Kernel × IoResult Unit :=
  if lim64 / 2 ≤ size then
    (k, .error (IoError.new .invalidInput "out of range integral type conversion attempted"))
  else ioErr tab (k.ftruncate64 fd size)

end File
end Vmap
