import Verif.Spec.WinWorld
/-
The system calls each step of a program makes on Windows (C139), with their arguments and in order.
-/
namespace Vmap

namespace Spec

/-- `cs` are the calls made between `s` and `s'`, oldest first. -/
def WinDid (s s' : Vmap.Win) (cs : List WinCall) : Prop := s'.log = cs.reverse ++ s.log

/-- What is asked of Windows for each kind of access: the protection of the section and the access of
the view. -/
inductive WinAsks : Protect → WinProt → WinAccess → Prop
  | readOnly : WinAsks .readOnly .readonly ⟨true, false, false, false⟩
  | readWrite : WinAsks .readWrite .readwrite ⟨true, true, false, false⟩
  | readCopy : WinAsks .readCopy .writecopy ⟨false, false, true, false⟩
  | readExec : WinAsks .readExec .executeRead ⟨true, false, false, true⟩

/-- A 64-bit number is passed as two of 32 bits. -/
def Split (n hi lo : Nat) : Prop := hi * 2 ^ 32 + lo = n ∧ lo < 2 ^ 32

/-- The calls that view `len` bytes from byte `off` on of a new section of `size` bytes, at a place of
Windows' choice: make the section, view it, close it.  If it cannot be made, that is all;
it is closed whether or not it could be viewed. -/
def ViewCalls (file : Option Nat) (p : Protect) (size off len : Nat) (all : Bool) (cs : List WinCall) : Prop :=
  ∃ prot access shi slo ohi olo h, WinAsks p prot access ∧ Split size shi slo ∧ Split off ohi olo ∧
    (cs = [.createFileMapping file prot shi slo] ∧ all = false ∨
     cs = [.createFileMapping file prot shi slo, .mapViewOfFileEx h access ohi olo len 0, .closeHandle h])

/-- The calls of `map_if`: ask for the length; set it at most once for `truncate` and at most once
for `resize`, and only if the options ask for it; view the file, from the beginning of the granule of the offset
on, at most once.  `all`: a map was made. -/
def WinFileCalls (u : Nat) (o : Options) (file : Nat) (all : Bool) (cs : List WinCall) : Prop :=
  ∃ tr rs mp, cs = .getFileInfo file :: (tr ++ rs ++ mp) ∧
    (tr = [] ∨ o.truncate = true ∧ tr = [.setEndOfFile file 0]) ∧
    (rs = [] ∨ ∃ n, (o.resize = .exact n ∨ o.resize = .min n ∨ o.resize = .max n) ∧
      rs = [.setEndOfFile file n]) ∧
    (mp = [] ∧ all = false ∨
      ∃ len, o.offset % u ≤ len ∧ ViewCalls (some file) o.protect 0 (o.offset / u * u) len all mp)

/-- One unsuccessful attempt to view both halves of a ring of `len` bytes: find room for both, give it back,
view the section there; the first or the second view fails, and in the latter case the first is taken
away. -/
def TryFails (h len : Nat) (cs : List WinCall) : Prop :=
  ∃ pg, cs = [.virtualAlloc (2 * len), .virtualFree pg,
      .mapViewOfFileEx h ⟨true, true, false, false⟩ 0 0 len pg] ∨
    cs = [.virtualAlloc (2 * len), .virtualFree pg,
      .mapViewOfFileEx h ⟨true, true, false, false⟩ 0 0 len pg,
      .mapViewOfFileEx h ⟨true, true, false, false⟩ 0 0 len (pg + len), .unmapViewOfFile pg]

/-- At most `n` attempts, the last of which has the outcome `b`. -/
inductive RingTries (h len : Nat) : Nat → Bool → List WinCall → Prop
  | noRoom {n : Nat} : RingTries h len (n + 1) false [.virtualAlloc (2 * len)]
  | done {n : Nat} (pg : Nat) : RingTries h len (n + 1) true [.virtualAlloc (2 * len), .virtualFree pg,
      .mapViewOfFileEx h ⟨true, true, false, false⟩ 0 0 len pg,
      .mapViewOfFileEx h ⟨true, true, false, false⟩ 0 0 len (pg + len)]
  | last {cs : List WinCall} (fails : TryFails h len cs) : RingTries h len 1 false cs
  | again {n : Nat} {b : Bool} {cs ds : List WinCall} (fails : TryFails h len cs) (rest : RingTries h len n b ds) :
      RingTries h len (n + 1) b (cs ++ ds)

/-- The calls of a ring creation: make a section of twice the length in memory, try six times to view its
beginning at two adjacent places, close it.  `all`: a ring was made. -/
def WinRingCalls (u hint : Nat) (all : Bool) (cs : List WinCall) : Prop :=
  ∃ len hi lo, u ∣ len ∧ hint ≤ len ∧ len < hint + u ∧ Split (2 * len) hi lo ∧
    (cs = [.createFileMapping none .readwrite hi lo] ∧ all = false ∨
     ∃ h ds, RingTries h len 6 all ds ∧ cs = .createFileMapping none .readwrite hi lo :: ds ++ [.closeHandle h])

end Spec
open Spec

/-- The calls a step of a program may make.  `w'` is the state after it; `w'.next ≠ w.next` says that
the program has obtained a new map or ring. -/
def WinOp.Makes (w w' : WinWorld) (cs : List WinCall) : WinOp → Prop
  | .mapIf o file => WinFileCalls w.s.gran o file (decide (w'.next ≠ w.next)) cs
  | .alloc o => ∃ l, AllocLen w.s.gran (o.offset % w.s.page) o.len l ∧
      ViewCalls none o.protect (o.offset % w.s.page + l) 0 (o.offset % w.s.page + l) (decide (w'.next ≠ w.next)) cs
  | .newRing hint => WinRingCalls w.s.gran hint (decide (w'.next ≠ w.next)) cs
  | .newInf hint => WinRingCalls w.s.gran hint (decide (w'.next ≠ w.next)) cs
  | .drop i => match w.held i with
    | some (.map m) => if m.len = 0 then cs = [] else
        ∃ a, w.s.gran ∣ a ∧ a ≤ m.ptr ∧ m.ptr < a + w.s.gran ∧ cs = [.unmapViewOfFile a]
    | some (.ring r) => cs = [.unmapViewOfFile (r.ptr + r.len), .unmapViewOfFile r.ptr]
    | some (.inf r) => cs = [.unmapViewOfFile (r.ptr + r.len), .unmapViewOfFile r.ptr]
    | none => cs = []
  | .flush i file off len mode => match w.held i with
    | some (.map m) => if off + len ≤ m.len then
        ∃ a l, WinPages w.s.page (m.ptr + off) len a l ∧ (cs = [.flushViewOfFile a l] ∨
          mode = .sync ∧ cs = [.flushViewOfFile a l, .flushFileBuffers file]) else cs = []
    | _ => cs = []
  | .advise .. => cs = []
  | .lock i off len => match w.held i with
    | some (.map m) => if off + len ≤ m.len then
        ∃ a l, WinPages w.s.page (m.ptr + off) len a l ∧ cs = [.virtualLock a l] else cs = []
    | _ => cs = []
  | .unlock i off len => match w.held i with
    | some (.map m) => if off + len ≤ m.len then
        ∃ a l, WinPages w.s.page (m.ptr + off) len a l ∧ cs = [.virtualUnlock a l] else cs = []
    | _ => cs = []
  | .intoMapMut i => match w.held i with
    | some (.map m) => ∃ a l, WinPages w.s.page m.ptr m.len a l ∧ cs = [.virtualProtect a l .readwrite]
    | _ => cs = []
  | .intoMap i => match w.held i with
    | some (.map m) => ∃ a l, WinPages w.s.page m.ptr m.len a l ∧ cs = [.virtualProtect a l .readwrite]
    | _ => cs = []
  -- reading and writing memory, and all calls on rings
  | .set .. => cs = []
  | .ringUse .. => cs = []
  | .infUse .. => cs = []
  -- not calls of this program
  | .files .. => cs = []

end Vmap
