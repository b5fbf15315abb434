import Verif.Spec.Map
import Verif.Model.Windows
import Verif.Model.Mach
/-
Specification vocabulary for C133: an operating system that carries out every call it is able to.
-/
namespace Vmap
namespace Spec

/-- From now on the kernel fails no call on its own account, and to whoever asks for memory it offers
the `n` pages from page `p` on, which are free, inside the address space and not at address zero. -/
structure Willing (t : Target) (k : Kernel) (p n : Nat) : Prop where
  ok : ∀ i, k.tick ≤ i → (k.oracle i).ok = true
  place : ∀ i, k.tick ≤ i → (k.oracle i).page = p
  free : ∀ q, p ≤ q → q < p + n → k.pt q = none
  top : (p + n) * k.page < t.lim
  bottom : p ≠ 0

/-- The numbers that a `resize` names. -/
def named : Extent → Nat
  | .exact n => n
  | .min n => n
  | .max n => n
  | .endOf => 0

/-- A file of `old` bytes, which was opened for writing or not, can be mapped with these options at
all: it can be written if stores go to it or its length is to change; the length it is given is
below `2 ^ 63`, and the offset is no negative `off_t`; and if the range is inside the file, some
byte is to be mapped or the offset is inside a page (a system refuses to map nothing). -/
structure Mappable (t : Target) (page : Nat) (o : Options) (canWrite : Bool) (old : Nat) : Prop where
  store : o.protect = .readWrite → canWrite = true
  change : o.truncate = true ∨ o.resize ≠ .endOf → canWrite = true
  length : named o.resize < 2 ^ 63
  offset : o.offset < t.lim / 2
  some : InRange (newLen o.truncate o.resize old) o.offset o.len →
    0 < wanted (newLen o.truncate o.resize old) o.offset o.len + o.offset % page

/-- A file can be opened with these options, and has `old` bytes then: what creates or truncates asks
for write access, and the name is there or is made. -/
structure Openable (k : Kernel) (o : Options) (path : String) (old : Nat) : Prop where
  access : o.openOptions.truncate = true ∨ o.openOptions.create = true ∨
    o.openOptions.createNew = true → o.openOptions.write = true
  found : (∃ x, k.names path = Option.some x ∧ o.openOptions.createNew = false ∧
      old = if o.openOptions.truncate then 0 else k.size x) ∨
    (k.names path = none ∧ (o.openOptions.create = true ∨ o.openOptions.createNew = true) ∧ old = 0)

/-- Windows, the same: no call fails on its own account, and the addresses `addr ..< addr + len`, which
start at a granule, are offered; nothing is there. -/
structure WinWilling (t : Target) (s : Win) (addr len : Nat) : Prop where
  ok : ∀ i, (s.oracle i).ok = true
  place : ∀ i, (s.oracle i).addr = addr
  granule : s.gran ∣ addr
  top : addr + (len + s.page - 1) / s.page * s.page < t.lim
  bottom : addr ≠ 0
  views : ∀ v, v ∈ s.views → addr + (len + s.page - 1) / s.page * s.page ≤ v.base ∨
    v.base + (v.len + s.page - 1) / s.page * s.page ≤ addr
  reserved : ∀ r, r ∈ s.reserved → addr + (len + s.page - 1) / s.page * s.page ≤ r.1 ∨
    r.1 + (r.2 + s.page - 1) / s.page * s.page ≤ addr

/-- Windows: the file can be mapped with these options.  (Files are opened for all that the options
ask for; a file whose length is to change has no views yet.) -/
structure WinMappable (s : Win) (o : Options) (file flen : Nat) : Prop where
  views : o.truncate = true ∨ o.resize ≠ .endOf → ∀ v, v ∈ s.views → v.sec.file ≠ some file
  length : named o.resize < 2 ^ 63
  some : InRange (newLen o.truncate o.resize flen) o.offset o.len →
    0 < wanted (newLen o.truncate o.resize flen) o.offset o.len + o.offset % s.gran

/-- macOS, the same. -/
structure MachWilling (t : Target) (s : Mach) (p n : Nat) : Prop where
  ok : ∀ i, s.tick ≤ i → (s.oracle i).ok = true
  place : ∀ i, s.tick ≤ i → (s.oracle i).page = p
  free : ∀ q, p ≤ q → q < p + n → s.pt q = none
  top : (p + n) * s.page < t.lim
  bottom : p ≠ 0

end Spec
end Vmap
