import Verif.Model.WindowsMap
/-
src/map.rs:1182-1240 over src/os/windows.rs:102-129 once more: `map_if` and `alloc` on Windows cut into
their system calls, so that other threads can act in between.  `C147_alone_map` and `C147_alone_alloc`
(Props/WinMapJob.lean) tie this to `Win.mapIf` and `Win.alloc`.
-/
namespace Vmap

/-- Where a thread is inside `map_if` or `alloc`: the system call it makes next.  `h` is the handle of the
section.  src/map.rs:1182-1240. -/
inductive WinMapJob
  /-- `GetFileInformationByHandle` — src/map.rs:1184 -/
  | stat
  /-- setting the file's length to zero — src/map.rs:1189 -/
  | truncate
  /-- setting the file's length — src/map.rs:1193-1195 -/
  | resize (sz : Nat)
  /-- `CreateFileMappingW` of the file, which is taken to have `flen` bytes — src/os/windows.rs:111 -/
  | create (flen : Nat)
  /-- `CreateFileMappingW` of memory — src/os/windows.rs:126 -/
  | anon
  /-- `MapViewOfFileEx` of `len` bytes from `off` on; the map will be the `n` bytes of it from `d` on —
  src/os/windows.rs:112,127 -/
  | view (h : Nat) (op : Operation) (access : WinAccess) (off len d n : Nat)
  /-- `CloseHandle` — src/os/windows.rs:83-89 -/
  | close (h d n : Nat) (ret : Result Nat)
  /-- returned -/
  | done (ret : Result (Option MapMut))

namespace WinMapJob

/-- The choice after truncation — src/map.rs:1192-1197. -/
def afterTruncate (o : Options) (flen : Nat) : WinMapJob :=
  match o.resize with
  | .exact sz => .resize sz
  | .min sz => if sz > flen then .resize sz else .create flen
  | .max sz => if sz < flen then .resize sz else .create flen
  | .endOf => .create flen

/-- What is returned, when `map_file` or `map_anon` has returned — src/map.rs:1214,1239. -/
def finish (t : Target) (d n : Nat) : Result Nat → Result (Option MapMut)
  | .error e => .error e
  | .ok ptr => .ok (some (MapMut.fromPtr (ptrAdd t ptr d) n))

/-- The next system call and what the code does with its result, up to the call after it.  (A range
outside the file takes a step without a system call.)  src/map.rs:1182-1240,
src/os/windows.rs:102-129. -/
def step (tab : SysTable) (t : Target) (s : Win) (o : Options) (file : Nat) : WinMapJob → Exec (Win × WinMapJob)
  | .stat =>
    match s.fileLen tab file with
    | (s, .error e) => return (s, .done (.error (Options.mapFileErr e)))
    | (s, .ok n) =>
      if o.truncate && asUsize t n > 0 then return (s, .truncate)
      else return (s, afterTruncate o (asUsize t n))
  | .truncate =>
    match s.resizeFile tab file 0 with
    | (s, .error e) => return (s, .done (.error e))
    | (s, .ok n) => return (s, afterTruncate o n)
  | .resize sz =>
    match s.resizeFile tab file sz with
    | (s, .error e) => return (s, .done (.error e))
    | (s, .ok n) => return (s, .create n)
  | .create flen =>
    let off := o.offset
    if flen < off then return (s, .done (.ok none))
    else do
      let max ← subU t flen off
      match Options.mapLen o.len max with
      | none => return (s, .done (.ok none))
      | some len =>
        let mapoff ← s.sizeAlloc.truncate t off
        let d ← subU t off mapoff
        let maplen ← addU t len d
        let b := Win.mapFileBits o.protect
        match ← s.handleNew t .mapFileHandle (some file) b.1 0 with
        | (s, .error e) => return (s, .done (.error e))
        | (s, .ok h) => return (s, .view h .mapFileView b.2 mapoff maplen d len)
  | .anon => do
    let off ← s.sizePage.offset t o.offset
    let len ← s.allocLen t o.len off
    let n ← addU t off len
    let b := Win.mapAnonBits o.protect
    match ← s.handleNew t .mapAnonymousHandle none b.1 n with
    | (s, .error e) => return (s, .done (.error e))
    | (s, .ok h) => return (s, .view h .mapAnonymousView b.2 0 n off len)
  | .view h op access off len d n => do
    let (s, r) ← s.view t h op access off len 0
    return (s, .close h d n r)
  | .close h d n ret => return (s.dropHandle h, .done (finish t d n ret))
  | .done ret => return (s, .done ret)

/-- `n` steps with nobody in between.  src/map.rs:1182-1240. -/
def run (tab : SysTable) (t : Target) (s : Win) (o : Options) (file : Nat) (j : WinMapJob) :
    Nat → Exec (Win × WinMapJob)
  | 0 => return (s, j)
  | n + 1 => do
    let (s, j) ← j.step tab t s o file
    run tab t s o file j n

end WinMapJob
end Vmap
