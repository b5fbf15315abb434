import Verif.Model.Error
/-
`memfd_open` on unix targets that have neither `memfd_create` nor `SHM_ANON`
(src/os/unix/posix/memfd.rs:33-61).  The Linux and FreeBSD variants are in Model/RingMap.lean.
-/
namespace Vmap

/-- The decimal digits of `n` in ASCII, without leading zeros (std's `Display for u32`).
src/os/unix/posix/memfd.rs:46. -/
def decimal (n : Nat) : List Byte :=
  if n < 10 then [UInt8.ofNat (48 + n)] else decimal (n / 10) ++ [UInt8.ofNat (48 + n % 10)]
  termination_by n
  decreasing_by omega

/-- `format!("{:0>7}", n)` (std): right-aligned in at least seven columns, filled with zeros.
src/os/unix/posix/memfd.rs:46. -/
def format07 (n : Nat) : List Byte :=
  List.replicate (7 - (decimal n).length) 48 ++ decimal n

/-- `write!(&mut buf[off..], "..").unwrap()` (std): a byte slice takes what fits and reports an error
if something is left over.  src/os/unix/posix/memfd.rs:46. -/
def writeSlice (buf : List Byte) (off : Nat) (s : List Byte) : Exec (List Byte) :=
  if off ≤ buf.length ∧ s.length ≤ buf.length - off then
    .ok (buf.take off ++ s ++ buf.drop (off + s.length))
  else .error .panic

/-- `CStr::from_bytes_with_nul(buf).unwrap()` (std): the last byte is the only NUL.  Gives the string
without it.  src/os/unix/posix/memfd.rs:47. -/
def cstr (buf : List Byte) : Exec (List Byte) :=
  if buf.getLast? = some 0 ∧ 0 ∉ buf.dropLast then .ok buf.dropLast else .error .panic

/-- `SystemTime::now().duration_since(UNIX_EPOCH).unwrap().subsec_nanos() % 10000000`
(src/os/unix/posix/memfd.rs:41-45), where the clock shows `now` nanoseconds since 1970 (negative
before): `duration_since` is an error for earlier times. -/
def pseudorandom (now : Int) : Exec Nat :=
  if now < 0 then .error .panic else .ok (now.toNat % 1000000000 % 10000000)

/-- A call on the name space of shared-memory objects.  src/os/unix/posix/memfd.rs:50,57. -/
inductive ShmCall
  | shmOpen (name : List Byte)
  | shmUnlink (name : List Byte)
  deriving DecidableEq, Repr

/-- What the loop sees of the system: which shared-memory names exist, the clock at the n-th
reading, the error (if any) with which the n-th `shm_open` fails for a reason other than the
name, the next descriptor, and the calls made so far (newest first).  Other processes do not
act between the calls of one process.  Environment of src/os/unix/posix/memfd.rs:38-60. -/
structure Shm where
  exists_ : List Byte → Bool
  clock : Nat → Int
  fail : Nat → Option Errno
  nextFd : Nat
  tick : Nat
  log : List ShmCall

/-- `shm_open(path, O_RDWR | O_CREAT | O_EXCL | O_CLOEXEC, 0o600)` — called at
src/os/unix/posix/memfd.rs:50. -/
def Shm.open (s : Shm) (name : List Byte) : Shm × Except Errno Nat :=
  let s1 := { s with tick := s.tick + 1, log := .shmOpen name :: s.log }
  match s.fail s.tick with
  | some e => (s1, .error e)
  | none =>
    if s.exists_ name then (s1, .error EEXIST)
    else ({ s1 with exists_ := fun n => n == name || s.exists_ n, nextFd := s.nextFd + 1 },
      .ok s.nextFd)

/-- `shm_unlink(path)` — called at src/os/unix/posix/memfd.rs:57 (the result is ignored). -/
def Shm.unlink (s : Shm) (name : List Byte) : Shm :=
  { s with exists_ := fun n => n != name && s.exists_ n, log := .shmUnlink name :: s.log }

/-- `path_bytes` — src/os/unix/posix/memfd.rs:36: "/vmap-XXXXXXX\0". -/
def pathBytes : List Byte :=
  [47, 118, 109, 97, 112, 45, 88, 88, 88, 88, 88, 88, 88, 0]

/-- The path of one round of the loop — src/os/unix/posix/memfd.rs:39-48: the new buffer and the C string
in it. -/
def shmPath (now : Int) (buf : List Byte) : Exec (List Byte × List Byte) := do
  let n ← pseudorandom now
  let buf ← writeSlice buf 6 (format07 n)
  let path ← cstr buf
  return (buf, path)

/-- The loop of `memfd_open` — src/os/unix/posix/memfd.rs:38-60.  `none`: still looping after `rounds`
rounds. -/
def memfdLoop : Nat → Shm → List Byte → Exec (Shm × Option (Result Nat))
  | 0, s, _ => return (s, none)
  | rounds + 1, s, buf => do
    let (buf, path) ← shmPath (s.clock s.tick) buf
    match s.open path with
    | (s, .error e) =>
      let err := Error.lastOsError .memoryFd e
      if err.rawOsError ≠ some EEXIST then return (s, some (.error err))
      else memfdLoop rounds s buf
    | (s, .ok fd) => return (s.unlink path, some (.ok fd))

/-- `memfd_open` (fallback) — src/os/unix/posix/memfd.rs:33-61, for at most `rounds` rounds. -/
def memfdOpen (rounds : Nat) (s : Shm) : Exec (Shm × Option (Result Nat)) :=
  memfdLoop rounds s pathBytes

end Vmap
