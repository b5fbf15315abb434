import Verif.Spec.World
/-
The system calls each step of a program makes (C137), with their arguments and in order.
-/
namespace Vmap
open Kernel

namespace Spec

/-- `es` are the system calls made between `k` and `k'`, oldest first. -/
def Did (k k' : Kernel) (es : List Event) : Prop := k'.log = es.reverse ++ k.log

/-- The system calls without their results. -/
def calls (es : List Event) : List Call := es.map Event.call

/-- All of these system calls succeeded. -/
def AllOk (es : List Event) : Prop := ∀ e ∈ es, ∃ v, e.result = .ok v

/-- A function that stops at the first system call that fails. -/
def StopsAtFailure (es : List Event) : Prop := AllOk es.dropLast

/-- An `mmap` that leaves the place to the kernel, so cannot replace a mapping. -/
def PlainMmap (fd : Option Nat) (c : Call) : Prop :=
  ∃ n prot flags off, flags.fixed = false ∧ c = .mmap 0 n prot flags fd off

/-- The calls of `map_if`: ask for the length; set it at most once for `truncate` and at most once
for `resize`, and only if the options ask for it; map at most once. -/
def FileCalls (o : Options) (fd : Nat) (es : List Event) : Prop :=
  ∃ tr rs mp, calls es = .fstat fd :: (tr ++ rs ++ mp) ∧
    (tr = [] ∨ o.truncate = true ∧ tr = [.ftruncate fd 0]) ∧
    (rs = [] ∨ ∃ n, (o.resize = .exact n ∨ o.resize = .min n ∨ o.resize = .max n) ∧
      rs = [.ftruncate fd n]) ∧
    (mp = [] ∨ ∃ c, PlainMmap (some fd) c ∧ mp = [c]) ∧
    StopsAtFailure es

/-- The last of these calls is an `mmap`, and all succeeded. -/
def EndsMapped (es : List Event) : Prop :=
  AllOk es ∧ ∃ c n prot flags fd off, (calls es).getLast? = some c ∧
    c = .mmap 0 n prot flags fd off

/-- The calls of a ring creation: make a memory file, set its length, reserve twice that much address
space, map the file over both halves, close the file.  If the length cannot be set or there is
no space only the file is closed; if one of the halves cannot be mapped the space is given
back first. -/
def RingCalls (es : List Event) : Prop :=
  (∃ e, es = [⟨.memfd, .error e⟩]) ∨
  ∃ fd len body, calls es = .memfd :: .ftruncate fd len :: (body ++ [.close fd]) ∧
    (body = [] ∨ ∃ a, PlainMmap none a ∧ (body = [a] ∨
      ∃ p prot flags, flags.fixed = true ∧ flags.shared = true ∧
        (body = [a, .mmap p len prot flags (some fd) 0, .munmap p (2 * len)] ∨
         body = [a, .mmap p len prot flags (some fd) 0, .mmap (p + len) len prot flags (some fd) 0,
            .munmap p (2 * len)] ∨
         body = [a, .mmap p len prot flags (some fd) 0,
            .mmap (p + len) len prot flags (some fd) 0])))

/-- The calls of a ring creation on macOS: reserve twice the length, put fresh memory over the first
half, make a port for it, map the port over the second half.  If one of these fails after the
reservation, the space is given back. -/
def DarwinRingCalls (es : List Event) : Prop :=
  ∃ len r rest, es = ⟨.vmAllocate (2 * len), r⟩ :: rest ∧
    ((∃ e, r = .error e) ∧ rest = [] ∨
     ∃ p, r = .ok p ∧
      (calls rest = [.vmAllocateAt p len, .vmDeallocate p (2 * len)] ∨
       calls rest = [.vmAllocateAt p len, .memoryEntry p len, .vmDeallocate p (2 * len)] ∨
       ∃ port, (calls rest = [.vmAllocateAt p len, .memoryEntry p len, .vmMap (p + len) len port,
            .vmDeallocate p (2 * len)] ∨
          calls rest = [.vmAllocateAt p len, .memoryEntry p len, .vmMap (p + len) len port])))

/-- One call, on the fewest whole pages (of `u` bytes) that contain `[a, a+l)`. -/
def OnPages (u a l : Nat) (f : Nat → Nat → Call) (es : List Event) : Prop :=
  ∃ addr sz, u ∣ addr ∧ u ∣ sz ∧ addr ≤ a ∧ a < addr + u ∧ a + l ≤ addr + sz ∧
    addr + sz < a + l + u ∧ calls es = [f addr sz]

end Spec
open Spec

/-- The calls a step of a program may make.  `w'` is the state after it; `w'.next ≠ w.next` says that
the program has obtained a new map or ring. -/
def Op.Makes (w w' : World) (es : List Event) : Op → Prop
  | .mapIf o fd => FileCalls o fd es ∧ (w'.next ≠ w.next → EndsMapped es)
  | .alloc _ => (∃ c, PlainMmap none c ∧ calls es = [c]) ∧ (w'.next ≠ w.next → EndsMapped es)
  | .openIf o path => (w'.next ≠ w.next → EndsMapped es) ∧
      (es = [] ∨ (∃ e, es = [⟨.open path, .error e⟩]) ∨
        ∃ fd fs, FileCalls o fd fs ∧ (es = ⟨.open path, .ok fd⟩ :: fs ∨
          w'.next = w.next ∧ es = ⟨.open path, .ok fd⟩ :: fs ++ [⟨.close fd, .ok 0⟩]))
  | .close fd => es = [⟨.close fd, .ok 0⟩]
  | .newRing _ =>
    if w.k.mach = true then DarwinRingCalls es ∧ (w'.next ≠ w.next → AllOk es ∧ es.length = 4)
    else RingCalls es ∧ (w'.next ≠ w.next → AllOk es ∧ es.length = 6)
  | .newInf _ =>
    if w.k.mach = true then DarwinRingCalls es ∧ (w'.next ≠ w.next → AllOk es ∧ es.length = 4)
    else RingCalls es ∧ (w'.next ≠ w.next → AllOk es ∧ es.length = 6)
  | .drop i => match w.held i with
    | some (.map m) => if m.len = 0 then es = [] else OnPages w.k.page m.ptr m.len .munmap es
    | some (.ring r _) =>
      if w.k.mach = true then es = [⟨.vmDeallocate r.ptr (2 * r.len), .ok 0⟩]
      else es = [⟨.munmap r.ptr (2 * r.len), .ok 0⟩]
    | some (.inf r _) =>
      if w.k.mach = true then es = [⟨.vmDeallocate r.ptr (2 * r.len), .ok 0⟩]
      else es = [⟨.munmap r.ptr (2 * r.len), .ok 0⟩]
    | none => es = []
  | .flush i off len mode => match w.held i with
    | some (.map m) => if off + len ≤ m.len then
        OnPages w.k.page (m.ptr + off) len (fun a l => .msync a l (mode = .sync)) es else es = []
    | _ => es = []
  | .advise i off len _ => match w.held i with
    | some (.map m) => if off + len ≤ m.len then
        ∃ adv, OnPages w.k.page (m.ptr + off) len (fun a l => .madvise a l adv) es else es = []
    | _ => es = []
  | .lock i off len => match w.held i with
    | some (.map m) => if off + len ≤ m.len then
        OnPages w.k.page (m.ptr + off) len (fun a l => .mlock a l true) es else es = []
    | _ => es = []
  | .unlock i off len => match w.held i with
    | some (.map m) => if off + len ≤ m.len then
        OnPages w.k.page (m.ptr + off) len (fun a l => .mlock a l false) es else es = []
    | _ => es = []
  | .intoMapMut i => match w.held i with
    | some (.map m) => ∃ prot, OnPages w.k.page m.ptr m.len (fun a l => .mprotect a l prot) es
    | _ => es = []
  | .intoMap i => match w.held i with
    | some (.map m) => ∃ prot, OnPages w.k.page m.ptr m.len (fun a l => .mprotect a l prot) es
    | _ => es = []
  -- reading and writing memory, and all calls on rings
  | .set .. => es = []
  | .ringOp .. => es = []
  | .infOp .. => es = []
  | .infAll .. => es = []
  -- not calls of this program
  | .pwrite .. => es = []
  | .writeBack .. => es = []

end Vmap
