import Verif.Model.Map
/-
Specification vocabulary for C32–C52: what the options ask for, on plain numbers, and what
it means for addresses to show a file.  None of it mentions the functions of Model/Map.lean.
-/
namespace Vmap
namespace Spec

/-- The file length that truncation and `resize` ask for, given the old length. -/
def newLen (truncate : Bool) (resize : Extent) (old : Nat) : Nat :=
  let base := if truncate then 0 else old
  match resize with
  | .exact n => n
  | .min n => Nat.max n base
  | .max n => Nat.min n base
  | .endOf => base

/-- The requested range lies inside a file of `flen` bytes. -/
def InRange (flen off : Nat) : Extent → Prop
  | .exact l => off + l ≤ flen
  | .min l => off + l ≤ flen
  | .max _ => off ≤ flen
  | .endOf => off ≤ flen

/-- The length of the map of an in-range request. -/
def wanted (flen off : Nat) : Extent → Nat
  | .exact l => l
  | .max l => Nat.min l (flen - off)
  | .min _ => flen - off
  | .endOf => flen - off

/-- The number of an extent is a `usize`. -/
def Extent.Fits (t : Target) : Extent → Prop
  | .endOf => True
  | .exact n => n < t.lim
  | .min n => n < t.lim
  | .max n => n < t.lim

/-- All numbers given to the builder are `usize`s (which Rust's types guarantee). -/
structure Fits (t : Target) (o : Options) : Prop where
  resize : Extent.Fits t o.resize
  len : Extent.Fits t o.len
  offset : o.offset < t.lim

end Spec

namespace Kernel

/-- Address `a` belongs to a page that maps byte `j` of object `o` (shared, or privately — then
the page may have been copied since), with protection `prot`; `mw`: the page may be made
writable. -/
def Maps (k : Kernel) (a : Nat) (o : Obj) (j : Nat) (shared mw : Bool) (prot : Prot) : Prop :=
  ∃ e, k.pt (a / k.page) = some e ∧ e.obj = o ∧ e.idx * k.page + a % k.page = j ∧
    e.shared = shared ∧ e.mayWrite = mw ∧ e.prot = prot ∧ k.backed e = true

/-- `[ptr, ptr+len)` maps `len` bytes of object `o` from byte `off` on. -/
def MapsAll (k : Kernel) (ptr len : Nat) (o : Obj) (off : Nat) (shared mw : Bool)
    (prot : Prot) : Prop :=
  ∀ i, i < len → k.Maps (ptr + i) o (off + i) shared mw prot

/-- `k'` differs from `k` only in the length and contents of object `o` and in bookkeeping. -/
structure OnlyFile (k k' : Kernel) (o : Obj) : Prop where
  page : k'.page = k.page
  pt : k'.pt = k.pt
  fds : k'.fds = k.fds
  names : k'.names = k.names
  disk : k'.disk = k.disk
  fresh : k'.fresh = k.fresh
  nextFd : k'.nextFd = k.nextFd
  oracle : k'.oracle = k.oracle
  size : ∀ o', o' ≠ o → k'.size o' = k.size o'
  data : ∀ o', o' ≠ o → k'.data o' = k.data o'

end Kernel
end Vmap

namespace Vmap
namespace Spec

/-- The calls `l` only ask for or set the length of file `fd`. -/
def LengthCalls (fd : Nat) (l : List Event) : Prop :=
  ∀ ev, ev ∈ l → ev.call = .fstat fd ∨ ∃ n, ev.call = .ftruncate fd n

/-- `err` is what has to be reported when asking for or setting the file's length failed:
the error of the last system call made, or, without a system call, "invalid input" for a
length no file can have. -/
def LengthError (tab : SysTable) (l : List Event) (resize : Extent) (err : Error) : Prop :=
  (∃ c errno rest, l = ⟨c, .error errno⟩ :: rest ∧
    err = ⟨.io ⟨tab.kindOf (.os errno), some errno, tab.msgOf (.os errno)⟩, .mapFile⟩) ∨
  (∃ n msg, (resize = .exact n ∨ resize = .min n ∨ resize = .max n) ∧ 2 ^ 63 ≤ n ∧
    err = ⟨.io ⟨.invalidInput, none, msg⟩, .mapFile⟩)

/-- The file `o` of `k'` is the file of `k` cut or extended to `n` bytes: the bytes kept are
`keep`, further ones are zero. -/
structure Resized (k k' : Kernel) (o : Obj) (keep n : Nat) : Prop where
  size : k'.size o = n
  kept : ∀ i, i < n → i < keep → k'.data o i = k.data o i
  zero : ∀ i, i < n → keep ≤ i → k'.data o i = 0

end Spec
end Vmap

namespace Vmap
namespace Spec

/-- Stores through a file map with this access go to the file. -/
def sharedOf : Protect → Bool
  | .readOnly => true
  | .readWrite => true
  | .readCopy => false
  | .readExec => false

/-- What may be done with the memory of a map with this access. -/
def protOf : Protect → Prot
  | .readOnly => ⟨true, false, false⟩
  | .readWrite => ⟨true, true, false⟩
  | .readCopy => ⟨true, true, false⟩
  | .readExec => ⟨true, false, true⟩

/-- The pages `[p, p+n)` are those that a map of `len` bytes at `ptr` needs: the first contains
`ptr`, the last the map's last byte; at least one page; inside the address space and not at
address zero.  (`u` is the page size.) -/
structure Pages (t : Target) (u ptr len p n : Nat) : Prop where
  p_pos : 0 < p
  n_pos : 0 < n
  fits : (p + n) * u < t.lim
  lower : p * u ≤ ptr
  lower' : ptr < p * u + u
  upper : ptr + len ≤ (p + n) * u
  upper' : (p + n) * u < ptr + len + u

end Spec

namespace Kernel

/-- Between `k` and `k'` a map `[ptr, ptr+len)` was created that shows `len` bytes of object `o`
from byte `off` on: its pages `[p, p+n)` were free before, are mapped now, no other page
changed, and no page of it has been copied or locked yet. -/
structure Created (t : Target) (k k' : Kernel) (ptr len : Nat) (o : Obj) (off : Nat)
    (shared mw : Bool) (prot : Prot) (p n : Nat) : Prop where
  pages : Spec.Pages t k.page ptr len p n
  free : ∀ q, p ≤ q → q < p + n → k.pt q = none
  mapped : ∀ q, p ≤ q → q < p + n →
    ∃ e, k'.pt q = some e ∧ e.copy = none ∧ e.locked = false ∧ e.obj = o ∧ e.prot = prot
  others : ∀ q, ¬ (p ≤ q ∧ q < p + n) → k'.pt q = k.pt q
  maps : k'.MapsAll ptr len o off shared mw prot

end Kernel
end Vmap

namespace Vmap
namespace Spec

/-- Stores through an anonymous map with this access are shared (with nobody but child
processes). -/
def anonShared : Protect → Bool
  | .readWrite => true
  | _ => false

/-- The sizes an allocation asks for do not exceed the address space (`d`: the offset within
the page). -/
def AllocFits (t : Target) (u d : Nat) : Extent → Prop
  | .endOf => True
  | .exact l => d + l < t.lim
  | .max l => d + l < t.lim
  | .min l => d + l + u < t.lim

/-- The length an allocation promises. -/
def AllocLen (u d : Nat) : Extent → Nat → Prop
  | .endOf, n => 1 ≤ n ∧ d + n = u
  | .exact l, n => n = l
  | .max l, n => n = l
  | .min l, n => l ≤ n ∧ u ∣ d + n ∧ n < l + u

/-- The kernel would grant a mapping of `len` bytes now: it does not fail on its own account,
and the place it picks is free, inside the address space and not at address zero. -/
structure Room (t : Target) (k : Kernel) (len : Nat) : Prop where
  ok : (k.oracle k.tick).ok = true
  pos : (k.oracle k.tick).page ≠ 0
  fits : ((k.oracle k.tick).page + (len + k.page - 1) / k.page) * k.page < t.lim
  free : ∀ q, (k.oracle k.tick).page ≤ q →
    q < (k.oracle k.tick).page + (len + k.page - 1) / k.page → k.pt q = none

end Spec
end Vmap

namespace Vmap
namespace Kernel

/-- The map `m` is in place on the pages `[p, p+n)`. -/
structure Live (t : Target) (k : Kernel) (m : MapMut) (p n : Nat) : Prop where
  pages : Spec.Pages t k.page m.ptr m.len p n
  mapped : ∀ q, p ≤ q → q < p + n → ∃ e, k.pt q = some e

end Kernel

namespace Spec

/-- The byte range `[addr, addr+len)` consists of the fewest whole pages that contain
`[a, a+l)`, and lies on the pages `[p, p+n)`. -/
structure Encloses (u p n a l addr len : Nat) : Prop where
  addr_dvd : u ∣ addr
  len_dvd : u ∣ len
  lower : addr ≤ a
  lower' : a < addr + u
  upper : a + l ≤ addr + len
  upper' : addr + len < a + l + u
  first : p * u ≤ addr
  last : addr + len ≤ (p + n) * u

end Spec
end Vmap

namespace Vmap
namespace Spec

/-- Everything but the page table (and the record of system calls) is the same. -/
structure SameButPages (k k' : Kernel) : Prop where
  page : k'.page = k.page
  data : k'.data = k.data
  size : k'.size = k.size
  disk : k'.disk = k.disk
  fds : k'.fds = k.fds
  names : k'.names = k.names
  fresh : k'.fresh = k.fresh
  nextFd : k'.nextFd = k.nextFd
  oracle : k'.oracle = k.oracle

/-- Exactly one system call, `c`, was made, and `r` tells how it ended: `Ok` if it succeeded,
else an error of operation `op` with its errno. -/
def OneCall (k k' : Kernel) (c : Call) (op : Operation) (r : Result Unit) : Prop :=
  (k'.log = ⟨c, .ok 0⟩ :: k.log ∧ r = .ok ()) ∨
  (∃ e err, k'.log = ⟨c, .error e⟩ :: k.log ∧ r = .error err ∧ err.operation = op ∧
    err.rawOsError = some e)

/-- The call was refused with an `InvalidInput` error of operation `op`; nothing happened, not
even a system call. -/
def Rejected {α : Type} (k : Kernel) (op : Operation) (x : Exec (Kernel × Result α)) : Prop :=
  ∃ err, x = .ok (k, .error err) ∧ err.operation = op ∧ err.rawOsError = none ∧
    ∀ tab : SysTable, err.kind tab = .invalidInput

/-- Between `k` and `k'` only attributes of the pages `[p, p+n)` changed: every page shows what
it showed, except that private copies of pages in the range may be gone, and protections and
lock states in the range may differ. -/
structure OnlyRange (k k' : Kernel) (p n : Nat) : Prop where
  page : k'.page = k.page
  data : k'.data = k.data
  size : k'.size = k.size
  fds : k'.fds = k.fds
  names : k'.names = k.names
  fresh : k'.fresh = k.fresh
  nextFd : k'.nextFd = k.nextFd
  oracle : k'.oracle = k.oracle
  outside : ∀ q, ¬ (p ≤ q ∧ q < p + n) → k'.pt q = k.pt q
  inside : ∀ q e, k.pt q = some e → ∃ e', k'.pt q = some e' ∧ e'.obj = e.obj ∧ e'.idx = e.idx ∧
    e'.shared = e.shared ∧ e'.mayWrite = e.mayWrite ∧ (e'.copy = e.copy ∨ e'.copy = none)
  unmapped : ∀ q, k.pt q = none → k'.pt q = none

end Spec
end Vmap
