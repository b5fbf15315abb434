import Verif.Model.WindowsMap
/-
`std::fs::{File, OpenOptions}` on Windows as src/map.rs uses them, and `open` and `open_if` over
them.

ENVIRONMENT MODEL (trusted base): the standard library on Windows and `CreateFileW`.
-/
namespace Vmap

/-- What `CreateFileW` is to do with a file that is or is not there (winapi constants `CREATE_NEW`,
`CREATE_ALWAYS`, `OPEN_EXISTING`, `OPEN_ALWAYS`, `TRUNCATE_EXISTING`; passed by std).
Environment of src/map.rs:1068,1109. -/
inductive WinCreation
  | createNew | createAlways | openExisting | openAlways | truncateExisting
  deriving DecidableEq, Repr

/-- A Windows process with the file system: the file of each path, the open file handles (file, and
whether it was opened for writing), the next unused handle and file number, Windows' choices at calls
of `CreateFileW`, and these calls (latest first).  `win.files` has the length of every file there is.
Simplified: files are never deleted, and have one name.  Environment of src/map.rs:1068,1109. -/
structure WinFs where
  win : Win
  names : String → Option Nat
  opened : Nat → Option (Nat × Bool)
  nextHandle : Nat
  nextFile : Nat
  asks : Nat → WinChoice
  asked : List (String × Bool × WinCreation)

namespace Win

/-- The next call will be refused with `ERROR_ACCESS_DENIED` (5).
Environment of src/map.rs:1186 and src/os/windows.rs:34-41. -/
def deny (s : Win) : Win :=
  { s with oracle := fun i => if i = s.tick then ⟨false, 5, 0⟩ else s.oracle i }

/-- `File::set_len` through a handle: refused if the handle is not for writing (`w`).
Called at src/map.rs:1186. -/
def setLenAs (tab : SysTable) (w : Bool) (s : Win) (file size : Nat) : Win × IoResult Unit :=
  if w then s.setLen tab file size else s.deny.setLen tab file size

/-- The closure `resize` of `map_if` — src/map.rs:1186. -/
def resizeFileAs (tab : SysTable) (w : Bool) (s : Win) (file sz : Nat) : Win × Result Nat :=
  match s.setLenAs tab w file (asU64 sz) with
  | (s, .ok ()) => (s, .ok sz)
  | (s, .error e) => (s, .error (Options.mapFileErr e))

/-- `map_if`, truncation — src/map.rs:1188-1190. -/
def truncateStepAs (tab : SysTable) (w : Bool) (s : Win) (o : Options) (file flen : Nat) : Win × Result Nat :=
  if o.truncate && flen > 0 then s.resizeFileAs tab w file 0 else (s, .ok flen)

/-- `map_if`, resizing — src/map.rs:1192-1197. -/
def resizeStepAs (tab : SysTable) (w : Bool) (s : Win) (o : Options) (file flen : Nat) : Win × Result Nat :=
  match o.resize with
  | .exact sz => s.resizeFileAs tab w file sz
  | .min sz => if sz > flen then s.resizeFileAs tab w file sz else (s, .ok flen)
  | .max sz => if sz < flen then s.resizeFileAs tab w file sz else (s, .ok flen)
  | .endOf => (s, .ok flen)

/-- `map_if` from where the file's length is known, through a handle — src/map.rs:1199-1214:
`CreateFileMappingW` with `PAGE_READWRITE` is refused if the handle is not for writing.  Where the
result is `Ok(None)` no call was made, so none was refused. -/
def mapStepAs (t : Target) (w : Bool) (s : Win) (o : Options) (file flen : Nat) :
    Exec (Win × Result (Option MapMut)) :=
  if w || decide (o.protect ≠ .readWrite) then s.mapStep t o file flen
  else
    match s.deny.mapStep t o file flen with
    | .ok (_, .ok none) => .ok (s, .ok none)
    | x => x

/-- `Options::map_if` with a file that was opened for writing or not — src/map.rs:1182-1215. -/
def mapIfAs (tab : SysTable) (t : Target) (w : Bool) (s : Win) (o : Options) (file : Nat) :
    Exec (Win × Result (Option MapMut)) :=
  match s.fileLen tab file with
  | (s, .error e) => return (s, .error (Options.mapFileErr e))
  | (s, .ok n) =>
    match s.truncateStepAs tab w o file (asUsize t n) with
    | (s, .error e) => return (s, .error e)
    | (s, .ok flen) =>
      match s.resizeStepAs tab w o file flen with
      | (s, .error e) => return (s, .error e)
      | (s, .ok flen) => s.mapStepAs t w o file flen

end Win

namespace WinFs

/-- Windows' choice at this call of `CreateFileW`.  Environment of src/map.rs:1068,1109. -/
def choice (fs : WinFs) : WinChoice := fs.asks fs.asked.length

/-- Hand out the next handle, to `file`.  Environment of src/map.rs:1068,1109. -/
def addHandle (fs : WinFs) (file : Nat) (write : Bool) : WinFs × Except Nat Nat :=
  ({ fs with
      opened := fun h => if h = fs.nextHandle then some (file, write) else fs.opened h
      nextHandle := fs.nextHandle + 1 },
    .ok fs.nextHandle)

/-- The file becomes empty.  Environment of src/map.rs:1068,1109. -/
def empty (fs : WinFs) (file : Nat) : WinFs :=
  { fs with win := { fs.win with
      files := fun f => if f = file then some 0 else fs.win.files f
      bytes := fs.win.bytes.resize file 0 0 } }

/-- A new empty file.  Environment of src/map.rs:1068,1109. -/
def newEmpty (fs : WinFs) (path : String) : WinFs :=
  { fs.empty fs.nextFile with
    names := fun p => if p = path then some fs.nextFile else fs.names p
    nextFile := fs.nextFile + 1 }

/-- Is there a view of the file?  Environment of src/map.rs:1068,1109. -/
def viewed (fs : WinFs) (file : Nat) : Bool := fs.win.views.any (fun v => decide (v.sec.file = some file))

/-- `CreateFileW(path, GENERIC_READ | GENERIC_WRITE?, FILE_SHARE_READ | FILE_SHARE_WRITE |
FILE_SHARE_DELETE, null, mode, ..)`.  A file of which there is a view is not made empty
(`ERROR_USER_MAPPED_FILE`).  The path is a plain name; permission checks, the sharing modes of other
processes and every other reason to fail are among Windows' choices.
Environment of src/map.rs:1068,1109. -/
def createFile (fs : WinFs) (path : String) (write : Bool) (mode : WinCreation) : WinFs × Except Nat Nat :=
  let c := fs.choice
  let fs := { fs with asked := (path, write, mode) :: fs.asked }
  if c.ok then
    match fs.names path with
    | some f =>
      match mode with
      | .createNew => (fs, .error 80)
      | .openExisting => fs.addHandle f write
      | .openAlways => fs.addHandle f write
      | .createAlways => if fs.viewed f then (fs, .error 1224) else (fs.empty f).addHandle f write
      | .truncateExisting => if fs.viewed f then (fs, .error 1224) else (fs.empty f).addHandle f write
    | none =>
      match mode with
      | .openExisting => (fs, .error 2)
      | .truncateExisting => (fs, .error 2)
      | .createNew => (fs.newEmpty path).addHandle fs.nextFile write
      | .createAlways => (fs.newEmpty path).addHandle fs.nextFile write
      | .openAlways => (fs.newEmpty path).addHandle fs.nextFile write
  else (fs, .error c.code)

/-- `CloseHandle` of a file handle (std: dropping a `File`).  Environment of src/map.rs:1069,1110. -/
def close (fs : WinFs) (h : Nat) : WinFs :=
  { fs with opened := fun q => if q = h then none else fs.opened q }

/-- `OpenOptions::get_creation_mode` (std, Windows, never with `append`): `none` stands for
`ERROR_INVALID_PARAMETER`.  Environment of src/map.rs:1068,1109. -/
def _root_.Vmap.OpenOptions.creation (o : OpenOptions) : Option WinCreation :=
  if !o.write && (o.truncate || o.create || o.createNew) then none
  else
    match o.create, o.truncate, o.createNew with
    | false, false, false => some .openExisting
    | true, false, false => some .openAlways
    | false, true, false => some .truncateExisting
    | true, true, false => some .createAlways
    | _, _, true => some .createNew

/-- A call's result as an `io::Result` (std: `io::Error::last_os_error()`).
Environment of src/map.rs:1068,1109. -/
def ioErr {α : Type} (tab : SysTable) (r : WinFs × Except Nat α) : WinFs × IoResult α :=
  match r with
  | (fs, .ok a) => (fs, .ok a)
  | (fs, .error e) => (fs, .error (SysError.toIo tab (.os e)))

/-- `OpenOptions::open` (std, Windows; src/map.rs always sets `read`, never `append`).
Called at src/map.rs:1068,1109. -/
def openFile (tab : SysTable) (fs : WinFs) (o : OpenOptions) (path : String) : WinFs × IoResult Nat :=
  match o.creation with
  | none => (fs, .error (SysError.toIo tab (.os 87)))
  | some mode => ioErr tab (fs.createFile path o.write mode)

/-- `Options::map_if` — src/map.rs:1182-1215.  `h` is the `&File`; a `File` is always open, so the
second case does not exist. -/
def mapIf (tab : SysTable) (t : Target) (fs : WinFs) (o : Options) (h : Nat) :
    Exec (WinFs × Result (Option MapMut)) :=
  match fs.opened h with
  | some (f, w) => do
    let (s, r) ← fs.win.mapIfAs tab t w o f
    return ({ fs with win := s }, r)
  | none => return (fs, .error (Options.mapFileErr (SysError.toIo tab (.os 6))))

/-- `Options::map` — src/map.rs:1143-1146. -/
def map (tab : SysTable) (t : Target) (fs : WinFs) (o : Options) (h : Nat) :
    Exec (WinFs × Result MapMut) := do
  match ← fs.mapIf tab t o h with
  | (fs, .error e) => return (fs, .error e)
  | (fs, .ok none) => return (fs, .error (Error.input .mapFile .invalidRange))
  | (fs, .ok (some m)) => return (fs, .ok m)

/-- `Options::open` — src/map.rs:1067-1070.  An early return drops the `File`, which closes the
handle. -/
def open_ (tab : SysTable) (t : Target) (fs : WinFs) (o : Options) (path : String) :
    Exec (WinFs × Result (MapMut × Nat)) :=
  match fs.openFile tab o.openOptions path with
  | (fs, .error e) => return (fs, .error (Options.mapFileErr e))
  | (fs, .ok h) => do
    match ← fs.map tab t o h with
    | (fs, .error e) => return (fs.close h, .error e)
    | (fs, .ok m) => return (fs, .ok (m, h))

/-- `Options::open_if` — src/map.rs:1108-1111. -/
def openIf (tab : SysTable) (t : Target) (fs : WinFs) (o : Options) (path : String) :
    Exec (WinFs × Result (Option MapMut × Nat)) :=
  match fs.openFile tab o.openOptions path with
  | (fs, .error e) => return (fs, .error (Options.mapFileErr e))
  | (fs, .ok h) => do
    match ← fs.mapIf tab t o h with
    | (fs, .error e) => return (fs.close h, .error e)
    | (fs, .ok m) => return (fs, .ok (m, h))

end WinFs
end Vmap
