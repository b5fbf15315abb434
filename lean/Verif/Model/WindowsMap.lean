import Verif.Model.Platform
/-
src/map.rs on Windows: `map_if` with its resizing, the range calls, conversions, and dropping
rings — the same source text as on Unix, over src/os/windows.rs.
-/
namespace Vmap
namespace Win

/-- A call's result as an `io::Result` (std: `io::Error::last_os_error()`).
Environment of src/map.rs:1184,1186. -/
def ioErr {α : Type} (tab : SysTable) (r : Win × Except Nat α) : Win × IoResult α :=
  match r with
  | (s, .ok a) => (s, .ok a)
  | (s, .error e) => (s, .error (SysError.toIo tab (.os e)))

/-- `File::metadata()?.len()` (std, Windows: `GetFileInformationByHandle`).
Called at src/map.rs:1184. -/
def fileLen (tab : SysTable) (s : Win) (file : Nat) : Win × IoResult Nat :=
  let s' := s.did (.getFileInfo file)
  match s.files file with
  | some n => ioErr tab (s', if s.choice.ok then .ok n else .error s.choice.code)
  | none => ioErr tab (s', .error s.choice.code)

/-- `File::set_len` (std, Windows: `SetFileInformationByHandle` with `FileEndOfFileInfo`): refused for
lengths from `2^63` on, and for a length below that of a section of the file that is still viewed
(`ERROR_USER_MAPPED_FILE`).  Called at src/map.rs:1186. -/
def setLen (tab : SysTable) (s : Win) (file size : Nat) : Win × IoResult Unit :=
  let s' := s.did (.setEndOfFile file size)
  if s.choice.ok = true ∧ s.files file ≠ none ∧ size < lim64 / 2 ∧
      s.views.all (fun v => decide (v.sec.file = some file → v.sec.size ≤ size)) then
    ({ s' with
        files := fun f => if f = file then some size else s.files f
        bytes := s.bytes.resize file ((s.files file).getD 0) size }, .ok ())
  else ioErr tab (s', .error s.choice.code)

/-- The closure `resize` of `map_if` — src/map.rs:1186. -/
def resizeFile (tab : SysTable) (s : Win) (file sz : Nat) : Win × Result Nat :=
  match s.setLen tab file (asU64 sz) with
  | (s, .ok ()) => (s, .ok sz)
  | (s, .error e) => (s, .error (Options.mapFileErr e))

/-- `map_if`, truncation — src/map.rs:1188-1190. -/
def truncateStep (tab : SysTable) (s : Win) (o : Options) (file flen : Nat) : Win × Result Nat :=
  if o.truncate && flen > 0 then s.resizeFile tab file 0 else (s, .ok flen)

/-- `map_if`, resizing — src/map.rs:1192-1197. -/
def resizeStep (tab : SysTable) (s : Win) (o : Options) (file flen : Nat) : Win × Result Nat :=
  match o.resize with
  | .exact sz => s.resizeFile tab file sz
  | .min sz => if sz > flen then s.resizeFile tab file sz else (s, .ok flen)
  | .max sz => if sz < flen then s.resizeFile tab file sz else (s, .ok flen)
  | .endOf => (s, .ok flen)

/-- `Options::map_if` — src/map.rs:1182-1215 (compare `Options.mapIf`). -/
def mapIf (tab : SysTable) (t : Target) (s : Win) (o : Options) (file : Nat) :
    Exec (Win × Result (Option MapMut)) :=
  match s.fileLen tab file with
  | (s, .error e) => return (s, .error (Options.mapFileErr e))
  | (s, .ok n) =>
    match s.truncateStep tab o file (asUsize t n) with
    | (s, .error e) => return (s, .error e)
    | (s, .ok flen) =>
      match s.resizeStep tab o file flen with
      | (s, .error e) => return (s, .error e)
      | (s, .ok flen) => s.mapStep t o file flen

/-- `Options::map` — src/map.rs:1143-1146. -/
def map (tab : SysTable) (t : Target) (s : Win) (o : Options) (file : Nat) :
    Exec (Win × Result MapMut) := do
  match ← s.mapIf tab t o file with
  | (s, .error e) => return (s, .error e)
  | (s, .ok none) => return (s, .error (Error.input .mapFile .invalidRange))
  | (s, .ok (some m)) => return (s, .ok m)

/-- `MapMut::flush_range` — src/map.rs:312-321 (`flush`, 301-306, is the same over the whole map,
without the check). -/
def flushRange (t : Target) (s : Win) (m : MapMut) (file off len : Nat) (mode : FlushMode) :
    Exec (Win × Result Unit) := do
  let sum ← addU t off len
  if sum > m.len then return (s, .error (Error.input .flush .invalidRange))
  else
    let (ptr, len) ← s.sizePage.bounds t (ptrAdd t m.ptr off) len
    return s.flush ptr file len mode

/-- `MapMut::flush` — src/map.rs:301-306. -/
def flushMap (t : Target) (s : Win) (m : MapMut) (file : Nat) (mode : FlushMode) :
    Exec (Win × Result Unit) := do
  let (ptr, len) ← s.sizePage.bounds t m.ptr m.len
  return s.flush ptr file len mode

/-- `MapMut::advise_range` — src/map.rs:332-341. -/
def adviseRange (t : Target) (s : Win) (m : MapMut) (off len : Nat) (adv : Advise) :
    Exec (Win × Result Unit) := do
  let sum ← addU t off len
  if sum > m.len then return (s, .error (Error.input .advise .invalidRange))
  else
    let (ptr, len) ← s.sizePage.bounds t (ptrAdd t m.ptr off) len
    return s.advise ptr len adv

/-- `MapMut::advise` — src/map.rs:324-329. -/
def adviseMap (t : Target) (s : Win) (m : MapMut) (adv : Advise) : Exec (Win × Result Unit) := do
  let (ptr, len) ← s.sizePage.bounds t m.ptr m.len
  return s.advise ptr len adv

/-- `MapMut::lock_range` — src/map.rs:352-361. -/
def lockRange (t : Target) (s : Win) (m : MapMut) (off len : Nat) : Exec (Win × Result Unit) := do
  let sum ← addU t off len
  if sum > m.len then return (s, .error (Error.input .lock .invalidRange))
  else
    let (ptr, len) ← s.sizePage.bounds t (ptrAdd t m.ptr off) len
    return s.lock ptr len

/-- `MapMut::lock` — src/map.rs:344-349. -/
def lockMap (t : Target) (s : Win) (m : MapMut) : Exec (Win × Result Unit) := do
  let (ptr, len) ← s.sizePage.bounds t m.ptr m.len
  return s.lock ptr len

/-- `MapMut::unlock_range` — src/map.rs:372-381. -/
def unlockRange (t : Target) (s : Win) (m : MapMut) (off len : Nat) : Exec (Win × Result Unit) := do
  let sum ← addU t off len
  if sum > m.len then return (s, .error (Error.input .unlock .invalidRange))
  else
    let (ptr, len) ← s.sizePage.bounds t (ptrAdd t m.ptr off) len
    return s.unlock ptr len

/-- `MapMut::unlock` — src/map.rs:364-369. -/
def unlockMap (t : Target) (s : Win) (m : MapMut) : Exec (Win × Result Unit) := do
  let (ptr, len) ← s.sizePage.bounds t m.ptr m.len
  return s.unlock ptr len

/-- `MapMut::into_map` — src/map.rs:289-295 (it asks for `Protect::ReadWrite`). -/
def intoMap (t : Target) (s : Win) (m : MapMut) : Exec (Win × ConvertResult Map MapMut) := do
  let (ptr, len) ← s.sizePage.bounds t m.ptr m.len
  match s.protect ptr len .readWrite with
  | (s, .ok ()) => return (s, .ok ⟨m⟩)
  | (s, .error err) => return (s, .error (err, m))

/-- `Map::into_map_mut` — src/map.rs:101-107. -/
def intoMapMut (t : Target) (s : Win) (m : Map) : Exec (Win × ConvertResult MapMut Map) := do
  let (ptr, len) ← s.sizePage.bounds t m.inner.ptr m.inner.len
  match s.protect ptr len .readWrite with
  | (s, .ok ()) => return (s, .ok m.inner)
  | (s, .error err) => return (s, .error (err, m))

/-- `map[i]` through `Deref` — src/map.rs:420-427 and std's bounds check. -/
def get (s : Win) (m : MapMut) (i : Nat) : Exec Byte :=
  if i < m.len then s.load (m.ptr + i) else .error .panic

/-- `map[i] = b` through `DerefMut` — src/map.rs:429-434 and std's bounds check. -/
def set (s : Win) (m : MapMut) (i : Nat) (b : Byte) : Exec Win :=
  if i < m.len then s.store (m.ptr + i) b else .error .panic

/-- `Drop for Ring` — src/io/ring.rs:92-96 (the result of `unmap_ring` is ignored; `write_capacity()`
is the ring's length, src/io/ring.rs:125-127). -/
def dropRing (t : Target) (s : Win) (r : Ring) : Win := (s.unmapRing t r.ptr (SeqWrite.writeCapacity r)).1

/-- `Drop for InfiniteRing` — src/io/ring.rs:245-249. -/
def dropInf (t : Target) (s : Win) (r : InfiniteRing) : Win :=
  (s.unmapRing t r.ptr (SeqWrite.writeCapacity r)).1

end Win
end Vmap
