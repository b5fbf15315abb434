import Verif.Model.WinJob
import Verif.Spec.Platform
/-
Ring creation on Windows while other threads use the same process: between any two of its system calls
anything may happen, except that nobody touches what the creation has and has told nobody about.
C125 is stated over the states a creation goes through.
-/
namespace Vmap

namespace WinRingJob

/-- The handle the creation has open. -/
def handle : WinRingJob → Option Nat
  | .reserve _ _ h _ => some h
  | .release _ _ h _ _ => some h
  | .first _ _ h _ _ => some h
  | .second _ _ h _ _ _ => some h
  | .undo _ _ h _ _ _ => some h
  | .finish h _ => some h
  | _ => none

/-- The addresses it has reserved: start and length. -/
def room : WinRingJob → Option (Nat × Nat)
  | .release _ full _ _ pg => some (pg, full)
  | _ => none

/-- Where it has views, for a ring of `len` bytes. -/
def bases (len : Nat) : WinRingJob → List Nat
  | .second _ _ _ _ _ a => [a]
  | .undo _ _ _ _ a _ => [a]
  | .finish _ (.ok a) => [a, a + len]
  | .done (.ok a) => [a, a + len]
  | _ => []

end WinRingJob

namespace Spec

/-- Reserved ranges overlap neither each other nor a view (page by page). -/
structure WinRoom (s : Vmap.Win) : Prop where
  apart : s.reserved.Pairwise fun r q =>
    r.1 + s.roundPage r.2 ≤ q.1 ∨ q.1 + s.roundPage q.2 ≤ r.1
  views : ∀ r, r ∈ s.reserved → ∀ v, v ∈ s.views →
    r.1 + s.roundPage r.2 ≤ v.base ∨ v.base + s.roundPage v.len ≤ r.1

/-- What may happen between two system calls of the creation `j`: views, reservations and handles come
and go, memory and files are written, and Windows makes up its mind — but the creation's own
handle, views and reservation stay, nobody views or opens its section, nobody writes to it, and
numbers that were used are not used again for another section. -/
structure WinOutside (t : Target) (len : Nat) (j : WinRingJob) (s s' : Vmap.Win) : Prop where
  wf : WinWf t s'
  laid : WinLaid t s'
  space : WinRoom s'
  page : s'.page = s.page
  gran : s'.gran = s.gran
  next : s.next ≤ s'.next
  handle : ∀ h, j.handle = some h → s'.handles h = s.handles h
  reserved : ∀ r, j.room = some r → r ∈ s.reserved → r ∈ s'.reserved
  views : ∀ v, v ∈ s.views → v.base ∈ j.bases len → v ∈ s'.views
  own : ∀ h sec, j.handle = some h → s.handles h = some sec →
    (∀ v, v ∈ s'.views → v.sec.id = sec.id → v ∈ s.views) ∧
    (∀ h' x, s'.handles h' = some x → x.id = sec.id → s.handles h' = some x) ∧
    s'.bytes.mem sec.id = s.bytes.mem sec.id ∧ s'.bytes.own sec.id = s.bytes.own sec.id

/-- A creation of a ring of `len` bytes that began in state `s0` has made `n` system calls and got to
`j`, and the state is `s`. -/
inductive WinRun (t : Target) (len : Nat) (s0 : Vmap.Win) : Nat → Vmap.Win → WinRingJob → Prop
  | start : WinRun t len s0 0 s0 (.create len)
  | own {n s j s' j'} (before : WinRun t len s0 n s j) (step : j.step t s = .ok (s', j')) :
      WinRun t len s0 (n + 1) s' j'
  | other {n s j s'} (before : WinRun t len s0 n s j) (what : WinOutside t len j s s') :
      WinRun t len s0 n s' j

/-- What one system call of a creation does, `j` and `j'` being where it is before and after: files,
and all handles, reservations and views but its own, stay as they are; so do all bytes.
What it gets is new, what it views is its own section, and what it no longer has is gone. -/
structure WinMinds (len : Nat) (j j' : WinRingJob) (s s' : Vmap.Win) : Prop where
  files : s'.files = s.files
  bytes : WinSame s s'
  page : s'.page = s.page
  gran : s'.gran = s.gran
  handles : ∀ h, j.handle ≠ some h → j'.handle ≠ some h → s'.handles h = s.handles h
  reserved : ∀ r, j.room ≠ some r → j'.room ≠ some r → (r ∈ s'.reserved ↔ r ∈ s.reserved)
  views : ∀ v, v.base ∉ j.bases len → v.base ∉ j'.bases len → (v ∈ s'.views ↔ v ∈ s.views)
  newHandle : ∀ h, j'.handle = some h → j.handle = some h ∨ h = s.next
  newRoom : ∀ r, j'.room = some r → j.room = some r ∨ r ∉ s.reserved
  newViews : ∀ b, b ∈ j'.bases len → b ∈ j.bases len ∨ ∀ v, v ∈ s.views → v.base ≠ b
  section' : ∀ v, v ∈ s'.views → v ∉ s.views →
    ∃ h, j.handle = some h ∧ s.handles h = some v.sec
  goneHandle : ∀ h, j.handle = some h → j'.handle ≠ some h → s'.handles h = none
  goneRoom : ∀ r, j.room = some r → j'.room ≠ some r → r ∉ s'.reserved
  goneViews : ∀ b, b ∈ j.bases len → b ∉ j'.bases len → ∀ v, v ∈ s'.views → v.base ≠ b

/-- Two creations have nothing in common. -/
structure WinApart (len len' : Nat) (j j' : WinRingJob) : Prop where
  handle : ∀ h, j.handle = some h → j'.handle ≠ some h
  room : ∀ r, j.room = some r → j'.room ≠ some r
  bases : ∀ b, b ∈ j.bases len → b ∉ j'.bases len'

/-- A view or a reservation lies in the `n` addresses from `a` on. -/
def WinTaken (s : Vmap.Win) (a n : Nat) : Prop :=
  (∃ v, v ∈ s.views ∧ v.base < a + n ∧ a < v.base + s.roundPage v.len) ∨
  ∃ r, r ∈ s.reserved ∧ r.1 < a + n ∧ a < r.1 + s.roundPage r.2

/-- A view of `len` bytes at `base` of the section, from its start, for reading
and writing. -/
def ringHalf (len base : Nat) (sec : Section) : WinView :=
  ⟨base, len, sec, 0, { read := true, write := true }⟩

/-- At `a` there is a new ring of `len` bytes: two views next to each other of one section, which is
memory, not a file, holds zeros, was made after `s0`, and is viewed nowhere else and has no
handle. -/
def WinNewRing (t : Target) (s0 s : Vmap.Win) (len a : Nat) : Prop :=
  0 < len ∧ a ≠ 0 ∧ s0.gran ∣ a ∧ a + 2 * len < t.lim ∧ ∃ sec, sec.file = none ∧ s0.next ≤ sec.id ∧
    ringHalf len a sec ∈ s.views ∧ ringHalf len (a + len) sec ∈ s.views ∧
    (∀ v, v ∈ s.views → v.sec.id = sec.id → v = ringHalf len a sec ∨ v = ringHalf len (a + len) sec) ∧
    (∀ h x, s.handles h = some x → x.id ≠ sec.id) ∧
    (∀ i, s.bytes.mem sec.id i = 0) ∧ ∀ x, s.bytes.own sec.id x = none

end Spec
end Vmap
