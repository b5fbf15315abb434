import Verif.Model.Map
/-
src/map.rs:1108-1111 and 1182-1215 once more: `map_if` and `open_if` cut into their system calls,
so that other threads and processes can act in between.  `C111_alone` and `C112_alone`
(Props/Race.lean) tie this to `Options.mapIf` and `Options.openIf`.
-/
namespace Vmap

/-- Where a thread is inside `map_if`: the system call it makes next.  src/map.rs:1182-1215. -/
inductive MapJob
  /-- `fstat` — src/map.rs:1184 -/
  | stat
  /-- `ftruncate` to nothing — src/map.rs:1189 -/
  | truncate
  /-- `ftruncate` — src/map.rs:1193-1195 -/
  | resize (sz : Nat)
  /-- `mmap`, the file being taken to have `flen` bytes — src/map.rs:1199-1214 -/
  | mmap (flen : Nat)
  /-- returned -/
  | done (ret : Result (Option MapMut))

namespace MapJob

/-- The choice after truncation — src/map.rs:1192-1197. -/
def afterTruncate (o : Options) (flen : Nat) : MapJob :=
  match o.resize with
  | .exact sz => .resize sz
  | .min sz => if sz > flen then .resize sz else .mmap flen
  | .max sz => if sz < flen then .resize sz else .mmap flen
  | .endOf => .mmap flen

/-- The next system call and what the code does with its result, up to the call after it.  (A
length that `File::set_len` refuses takes a step without a system call, so does a range
outside the file.)  src/map.rs:1182-1215. -/
def step (tab : SysTable) (t : Target) (k : Kernel) (o : Options) (fd : Nat) :
    MapJob → Exec (Kernel × MapJob)
  | .stat =>
    match File.len tab k fd with
    | (k, .error e) => return (k, .done (.error (Options.mapFileErr e)))
    | (k, .ok n) =>
      if o.truncate && asUsize t n > 0 then return (k, .truncate)
      else return (k, afterTruncate o (asUsize t n))
  | .truncate =>
    match Options.resizeFile tab k fd 0 with
    | (k, .error e) => return (k, .done (.error e))
    | (k, .ok n) => return (k, afterTruncate o n)
  | .resize sz =>
    match Options.resizeFile tab k fd sz with
    | (k, .error e) => return (k, .done (.error e))
    | (k, .ok n) => return (k, .mmap n)
  | .mmap flen => do
    let (k, r) ← o.mapStep t k fd flen
    return (k, .done r)
  | .done r => return (k, .done r)

/-- `n` calls in a row, with nothing in between.  src/map.rs:1182-1215. -/
def run (tab : SysTable) (t : Target) (k : Kernel) (o : Options) (fd : Nat) (j : MapJob) :
    Nat → Exec (Kernel × MapJob)
  | 0 => .ok (k, j)
  | n + 1 => do
    let (k, j) ← j.step tab t k o fd
    run tab t k o fd j n

end MapJob

/-- Where a thread is inside `open_if`.  src/map.rs:1108-1111. -/
inductive OpenJob
  /-- `open` — src/map.rs:1109 -/
  | start
  /-- inside `map_if` — src/map.rs:1110 -/
  | mapping (fd : Nat) (j : MapJob)
  /-- `close`, by dropping the `File` after a failure — src/map.rs:1110 -/
  | abandon (fd : Nat) (err : Error)
  /-- returned -/
  | done (ret : Result (Option MapMut × Nat))

namespace OpenJob

/-- The next system call and what the code does with its result, up to the call after it.
src/map.rs:1108-1111. -/
def step (tab : SysTable) (t : Target) (k : Kernel) (o : Options) (path : String) :
    OpenJob → Exec (Kernel × OpenJob)
  | .start =>
    match o.openOptions.open tab k path with
    | (k, .error e) => return (k, .done (.error (Options.mapFileErr e)))
    | (k, .ok fd) => return (k, .mapping fd .stat)
  | .mapping fd j => do
    match ← j.step tab t k o fd with
    | (k, .done (.error e)) => return (k, .abandon fd e)
    | (k, .done (.ok m)) => return (k, .done (.ok (m, fd)))
    | (k, j) => return (k, .mapping fd j)
  | .abandon fd err => return (k.close fd, .done (.error err))
  | .done r => return (k, .done r)

/-- `n` calls in a row, with nothing in between.  src/map.rs:1108-1111. -/
def run (tab : SysTable) (t : Target) (k : Kernel) (o : Options) (path : String) (j : OpenJob) :
    Nat → Exec (Kernel × OpenJob)
  | 0 => .ok (k, j)
  | n + 1 => do
    let (k, j) ← j.step tab t k o path
    run tab t k o path j n

/-- The descriptor a job has open (the `File` of src/map.rs:1109). -/
def fd : OpenJob → Option Nat
  | .mapping fd _ => some fd
  | .abandon fd _ => some fd
  | _ => none

end OpenJob
end Vmap
