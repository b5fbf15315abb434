import Verif.Model.Windows
import Verif.Spec.Map
/-
What maps and rings should look like on Windows.
-/
namespace Vmap
namespace Spec

/-- Consistency of a process: page size and granularity are powers of two, no view and no
reservation is empty, and numbers not yet handed out are unused. -/
structure WinWf (t : Target) (s : Win) : Prop where
  sizes : ∃ a b, s.page = 2 ^ a ∧ s.gran = 2 ^ b ∧ a ≤ b ∧ b + 1 < t.width.bits
  views : ∀ v, v ∈ s.views → 0 < v.len ∧ v.sec.id < s.next
  reserved : ∀ r, r ∈ s.reserved → 0 < r.2
  handles : ∀ h sec, s.handles h = some sec → h < s.next ∧ sec.id < s.next

/-- What the byte at an address is: byte `.2` of section `.1`, if anything. -/
def winShows (s : Win) (addr : Nat) : Option (Nat × Nat) :=
  (s.views.find? (fun v => decide (v.base ≤ addr ∧ addr < v.base + v.len))).map
    (fun v => (v.sec.id, v.off + (addr - v.base)))

/-- How often address space was reserved. -/
def reservations (s : Win) : Nat :=
  s.log.countP (fun c => match c with
    | .virtualAlloc _ => true
    | _ => false)

/-- No byte of a file or of a section that existed changes; new sections are zero. -/
structure WinSame (s s' : Win) : Prop where
  next : s.next ≤ s'.next
  file : s'.bytes.file = s.bytes.file
  old : ∀ id, id < s.next → s'.bytes.mem id = s.bytes.mem id ∧ s'.bytes.own id = s.bytes.own id
  new : ∀ id, s.next ≤ id → id < s'.next → (∀ i, s'.bytes.mem id i = 0) ∧ ∀ a, s'.bytes.own id a = none

/-- The page of address `x` is one of the view's (`u` is the page size; a view takes up whole pages). -/
def WinPageOf (u : Nat) (v : WinView) (x : Nat) : Prop := v.base ≤ x / u * u ∧ x / u * u < v.base + v.len

/-- Everything but the views, the call log, the numbers in use and the locks is as it was: in particular the
same handles are open and the same ranges are reserved, and no byte that existed has changed. -/
structure WinRest (s s' : Win) : Prop where
  handles : s'.handles = s.handles
  reserved : s'.reserved = s.reserved
  files : s'.files = s.files
  page : s'.page = s.page
  gran : s'.gran = s.gran
  bytes : WinSame s s'

/-- A ring of `len` bytes was created at `pg`: `2 * len` addresses inside the address space that
showed nothing; address `pg + i` shows byte `i % len` of one new section, and the two views,
one for each half, are views of it and allow reading and writing; it is memory of no file; all other
addresses show what they showed. -/
structure WinRing (t : Target) (s s' : Win) (pg len : Nat) : Prop where
  place : pg ≠ 0 ∧ pg + 2 * len < t.lim
  ring : ∃ id, s.next ≤ id ∧ ∀ i, i < 2 * len →
    winShows s (pg + i) = none ∧ winShows s' (pg + i) = some (id, i % len)
  others : ∀ a, ¬ (pg ≤ a ∧ a < pg + 2 * len) → winShows s' a = winShows s a
  access : ∃ v1 v2, s'.views = v2 :: v1 :: s.views ∧ v1.access = { read := true, write := true } ∧
    v2.access = { read := true, write := true } ∧ v1.base = pg ∧ v2.base = pg + len ∧
    v1.len = len ∧ v2.len = len ∧ v1.off = 0 ∧ v2.off = 0 ∧ v1.sec = v2.sec ∧ v1.sec.file = none
  aligned : s.gran ∣ pg

/-- What a view must allow for each kind of access: all are readable; `ReadWrite` writes to the
section itself, `ReadCopy` to private copies, and only `ReadExec` may execute. -/
structure WinAllows (p : Protect) (a : WinAccess) : Prop where
  read : a.read = true ∨ a.copy = true
  write : a.write = true ↔ p = .readWrite
  copy : a.copy = true ↔ p = .readCopy
  exec : a.exec = true ↔ p = .readExec

/-- A map was created: `m.ptr + i` shows byte `off + i` of one new section of `file` (`none`: memory),
inside that section, with the right access, at addresses that showed nothing; addresses outside the new view show
what they showed.  The view begins with the granule in which the map begins, shows the section
from a multiple of the granularity on, and its pages are inside the address space and were free. -/
structure WinMap (t : Target) (s s' : Win) (m : MapMut) (file : Option Nat) (off : Nat)
    (prot : Protect) (v : WinView) : Prop where
  views : s'.views = v :: s.views
  sec : s.next ≤ v.sec.id ∧ v.sec.file = file
  access : WinAllows prot v.access
  inside : v.base ≤ m.ptr ∧ m.ptr + m.len ≤ v.base + v.len ∧ v.base + v.len < t.lim ∧ v.base ≠ 0
  free : ∀ i, i < v.len → winShows s (v.base + i) = none
  bytes : ∀ i, i < m.len → winShows s' (m.ptr + i) = some (v.sec.id, off + i)
  others : ∀ a, ¬ (v.base ≤ a ∧ a < v.base + v.len) → winShows s' a = winShows s a
  start : s.gran ∣ v.base ∧ m.ptr < v.base + s.gran ∧ s.gran ∣ v.off
  room : 0 < v.len ∧ v.base + s.roundPage v.len < t.lim ∧
    ∀ x, x ∈ s.views → v.base + s.roundPage v.len ≤ x.base ∨ x.base + s.roundPage x.len ≤ v.base
  size : off + m.len ≤ v.sec.size
  new : v.sec.id < s'.next

/-- The sizes an allocation asks for do not exceed the address space (`d`: the offset within the
page; `u`: the allocation granularity). -/
def WinAllocFits (t : Target) (u d : Nat) : Extent → Prop
  | .endOf => True
  | .exact l => d + l < t.lim
  | .max l => d + l < t.lim
  | .min l => d + l + u < t.lim

end Spec
end Vmap
