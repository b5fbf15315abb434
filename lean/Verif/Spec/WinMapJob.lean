import Verif.Model.WinMapJob
import Verif.Spec.WinJob
import Verif.Spec.Race
/-
`map_if` and `alloc` on Windows while other threads use the same process and the same files.  C147 is
stated over the states such calls, and ring creations, go through.
-/
namespace Vmap

/-- What a call in progress has and has told nobody about: a handle, reserved addresses, views (by where
they begin). -/
structure WinHas where
  handle : Option Nat
  room : Option (Nat × Nat)
  bases : List Nat

/-- What a ring creation has. -/
def WinRingJob.has (len : Nat) (j : WinRingJob) : WinHas := ⟨j.handle, j.room, j.bases len⟩

namespace WinMapJob

/-- The handle a call has open. -/
def handle : WinMapJob → Option Nat
  | .view h _ _ _ _ _ _ => some h
  | .close h _ _ _ => some h
  | _ => none

/-- Where it has a view; a map begins in the first granule (of `u` bytes) of its view. -/
def bases (u : Nat) : WinMapJob → List Nat
  | .close _ _ _ (.ok ptr) => [ptr]
  | .done (.ok (some m)) => [m.ptr / u * u]
  | _ => []

/-- What it has. -/
def has (u : Nat) (j : WinMapJob) : WinHas := ⟨j.handle, none, j.bases u⟩

end WinMapJob

namespace Spec

/-- What may happen between two system calls of a call that has `a` (compare `WinOutside`): views,
reservations and handles come and go, memory and files are written, files are cut and extended, and
Windows makes up its mind — but what `a` names stays, nobody views or opens its section, nobody
writes to it, and numbers that were used are not used again for another section. -/
structure WinAround (t : Target) (a : WinHas) (s s' : Vmap.Win) : Prop where
  wf : WinWf t s'
  laid : WinLaid t s'
  space : WinRoom s'
  page : s'.page = s.page
  gran : s'.gran = s.gran
  next : s.next ≤ s'.next
  handle : ∀ h, a.handle = some h → s'.handles h = s.handles h
  reserved : ∀ r, a.room = some r → r ∈ s.reserved → r ∈ s'.reserved
  views : ∀ v, v ∈ s.views → v.base ∈ a.bases → v ∈ s'.views
  own : ∀ h sec, a.handle = some h → s.handles h = some sec →
    (∀ v, v ∈ s'.views → v.sec.id = sec.id → v ∈ s.views) ∧
    (∀ h' x, s'.handles h' = some x → x.id = sec.id → s.handles h' = some x) ∧
    s'.bytes.mem sec.id = s.bytes.mem sec.id ∧ s'.bytes.own sec.id = s.bytes.own sec.id

/-- A call of `map_if` begins with `.stat`, a call of `alloc` with `.anon`; the sizes asked for are
`usize`s, and those of an allocation fit the address space. -/
def WinBegins (t : Target) (s : Vmap.Win) (o : Options) : WinMapJob → Prop
  | .stat => Fits t o
  | .anon => WinAllocFits t s.gran (o.offset % s.page) o.len
  | _ => False

/-- `WinMapRun tab t o file b s0 n h s j`: a call that began with `b` in state `s0` has made `n` system
calls and got to `j`, and the state is `s`; `h` lists the states before (the last one first), whoever
brought them about. -/
inductive WinMapRun (tab : SysTable) (t : Target) (o : Options) (file : Nat) (b : WinMapJob) (s0 : Vmap.Win) :
    Nat → List Vmap.Win → Vmap.Win → WinMapJob → Prop
  | start : WinMapRun tab t o file b s0 0 [] s0 b
  | own {n h s j s' j'} (before : WinMapRun tab t o file b s0 n h s j)
      (step : j.step tab t s o file = .ok (s', j')) : WinMapRun tab t o file b s0 (n + 1) (s :: h) s' j'
  | other {n h s j s'} (before : WinMapRun tab t o file b s0 n h s j)
      (what : WinAround t (j.has s0.gran) s s') : WinMapRun tab t o file b s0 n (s :: h) s' j

/-- What one system call does to handles, reservations, views and memory, `a` and `a'` being what the
call in progress has before and after: all but its own stays as it is; so do the bytes of all
sections there were.  What it gets is new, what it views is its own section, and what it no longer
has is gone. -/
structure WinActs (a a' : WinHas) (s s' : Vmap.Win) : Prop where
  next : s.next ≤ s'.next
  old : ∀ id, id < s.next → s'.bytes.mem id = s.bytes.mem id ∧ s'.bytes.own id = s.bytes.own id
  page : s'.page = s.page
  gran : s'.gran = s.gran
  handles : ∀ h, a.handle ≠ some h → a'.handle ≠ some h → s'.handles h = s.handles h
  reserved : ∀ r, a.room ≠ some r → a'.room ≠ some r → (r ∈ s'.reserved ↔ r ∈ s.reserved)
  views : ∀ v, v.base ∉ a.bases → v.base ∉ a'.bases → (v ∈ s'.views ↔ v ∈ s.views)
  newHandle : ∀ h, a'.handle = some h → a.handle = some h ∨ h = s.next
  newRoom : ∀ r, a'.room = some r → a.room = some r ∨ r ∉ s.reserved
  newViews : ∀ b, b ∈ a'.bases → b ∈ a.bases ∨ ∀ v, v ∈ s.views → v.base ≠ b
  section' : ∀ v, v ∈ s'.views → v ∉ s.views → ∃ h, a.handle = some h ∧ s.handles h = some v.sec
  goneHandle : ∀ h, a.handle = some h → a'.handle ≠ some h → s'.handles h = none
  goneRoom : ∀ r, a.room = some r → a'.room ≠ some r → r ∉ s'.reserved
  goneViews : ∀ b, b ∈ a.bases → b ∉ a'.bases → ∀ v, v ∈ s'.views → v.base ≠ b

/-- Between `s` and `s'` the file may have been cut or extended to one of the lengths in `ls`, and then
what it grows by is zero, and no section of it that is viewed is longer; no other file changed. -/
def WinFileCut (s s' : Vmap.Win) (file : Nat) (ls : List Nat) : Prop :=
  (s'.files = s.files ∧ s'.bytes.file = s.bytes.file) ∨
  ∃ old n, n ∈ ls ∧ s.files file = some old ∧ s'.files file = some n ∧
    (∀ f, f ≠ file → s'.files f = s.files f ∧ s'.bytes.file f = s.bytes.file f) ∧
    (∀ i, s'.bytes.file file i = if i < old ∧ i < n then s.bytes.file file i else 0) ∧
    ∀ v, v ∈ s.views → v.sec.file = some file → v.sec.size ≤ n

/-- The lengths to which a call may set its file. -/
def winLengths (o : Options) : WinMapJob → List Nat
  | .stat => lengths o.truncate o.resize
  | _ => []

/-- Two calls have nothing in common. -/
structure WinDistinct (a b : WinHas) : Prop where
  handle : ∀ h, a.handle = some h → b.handle ≠ some h
  room : ∀ r, a.room = some r → b.room ≠ some r
  bases : ∀ x, x ∈ a.bases → x ∉ b.bases

/-- The map `m` is there: it is inside one view, of a section of the file (of memory, if `none`) that was
made after `s0`, is viewed nowhere else and has no handle, and nobody has written to; the
`i`-th byte of the map is byte `off + i` of the section, which has it, and the access is right. -/
structure WinFresh (t : Target) (s0 s : Vmap.Win) (file : Option Nat) (off : Nat) (prot : Protect) (m : MapMut)
    (v : WinView) : Prop where
  view : v ∈ s.views
  only : ∀ x, x ∈ s.views → x.sec.id = v.sec.id → x = v
  closed : ∀ h x, s.handles h = some x → x.id ≠ v.sec.id
  sec : s0.next ≤ v.sec.id ∧ v.sec.file = file
  access : WinAllows prot v.access
  inside : v.base ≠ 0 ∧ v.base ≤ m.ptr ∧ m.ptr < v.base + s0.gran ∧ m.ptr + m.len ≤ v.base + v.len ∧
    v.base + v.len < t.lim
  aligned : s0.gran ∣ v.base
  bytes : ∀ i, i < m.len → winShows s (m.ptr + i) = some (v.sec.id, off + i)
  size : off + m.len ≤ v.sec.size
  zero : ∀ i, s.bytes.mem v.sec.id i = 0
  own : ∀ x, s.bytes.own v.sec.id x = none

/-- A thread that makes a ring of `len` bytes, or a map. -/
inductive WinTask
  | ring (len : Nat) (j : WinRingJob)
  | map (o : Options) (file : Nat) (b j : WinMapJob)

/-- Its next system call. -/
def WinTask.step (tab : SysTable) (t : Target) (s : Vmap.Win) : WinTask → Exec (Vmap.Win × WinTask)
  | .ring len j => do
    let (s, j) ← j.step t s
    return (s, .ring len j)
  | .map o file b j => do
    let (s, j) ← j.step tab t s o file
    return (s, .map o file b j)

/-- What it has. -/
def WinTask.has (u : Nat) : WinTask → WinHas
  | .ring len j => j.has len
  | .map _ _ _ j => j.has u

/-- It has not made a call yet, and asks for sizes that fit. -/
def WinTask.Fresh (t : Target) (s : Vmap.Win) : WinTask → Prop
  | .ring len j => j = .create len ∧ 2 * len < t.lim
  | .map o _ b j => j = b ∧ WinBegins t s o b

/-- Where a thread that began in state `s0` has got to after `n` calls, if others did only what may happen
around it. -/
def WinTask.Run (tab : SysTable) (t : Target) (s0 : Vmap.Win) (n : Nat) (s : Vmap.Win) : WinTask → Prop
  | .ring len j => 2 * len < t.lim ∧ WinRun t len s0 n s j
  | .map o file b j => WinBegins t s0 o b ∧ ∃ h, WinMapRun tab t o file b s0 n h s j

/-- It has returned. -/
def WinTask.Over : WinTask → Prop
  | .ring _ j => ∃ r, j = .done r
  | .map _ _ _ j => ∃ r, j = .done r

/-- A program whose threads make rings and maps: whenever a thread likes it begins a task or makes its next
system call; once a task has returned, what it made is the program's.  What else the program does
leaves alone what its tasks have. -/
inductive WinTeam (tab : SysTable) (t : Target) (s0 : Vmap.Win) : Vmap.Win → (Nat → Option WinTask) → Prop
  | start : WinTeam tab t s0 s0 (fun _ => none)
  | begin {s ts i a} (before : WinTeam tab t s0 s ts) (idle : ts i = none) (fresh : a.Fresh t s) :
      WinTeam tab t s0 s (fun k => if k = i then some a else ts k)
  | step {s ts i a s' a'} (before : WinTeam tab t s0 s ts) (busy : ts i = some a)
      (step : a.step tab t s = .ok (s', a')) : WinTeam tab t s0 s' (fun k => if k = i then some a' else ts k)
  | stop {s ts i a} (before : WinTeam tab t s0 s ts) (busy : ts i = some a) (over : a.Over) :
      WinTeam tab t s0 s (fun k => if k = i then none else ts k)
  | other {s ts s'} (before : WinTeam tab t s0 s ts) (sane : WinAround t ⟨none, none, []⟩ s s')
      (what : ∀ i a, ts i = some a → WinAround t (a.has s0.gran) s s') : WinTeam tab t s0 s' ts

end Spec
end Vmap
