import Verif.Model.Fork
import Verif.Spec.World
/-
Specification vocabulary for C115: memory after `fork`.
-/
namespace Vmap
namespace Spec
open Kernel

/-- The pages whose mapping or (for a store) contents an action can change.  An `mmap` without
`MAP_FIXED` uses pages that are free. -/
def touches (k : Kernel) : Act → Nat → Prop
  | .store a _, q => q = a / k.page
  | .mmap addr len _ flags _ _, q =>
    if flags.fixed then addr / k.page ≤ q ∧ q < addr / k.page + k.pages len else k.pt q = none
  | .munmap addr len, q => addr / k.page ≤ q ∧ q < addr / k.page + k.pages len
  | .mprotect addr len _, q => addr / k.page ≤ q ∧ q < addr / k.page + k.pages len
  | .madvise addr len _, q => addr / k.page ≤ q ∧ q < addr / k.page + k.pages len
  | .mlock addr len _, q => addr / k.page ≤ q ∧ q < addr / k.page + k.pages len
  | _, _ => False

/-- An action that leaves the pages of `m` alone. -/
def Spares (k : Kernel) (m : MapMut) (a : Act) : Prop :=
  ∀ j, j < m.len → ¬ touches k a ((m.ptr + j) / k.page)

/-- `PrivateSince t p m f0 c0 f c`: in the state `f0` the memory `m` of process `p` held the bytes `c0`;
since then `p` has stored to it, and done other things that leave its pages alone, *the other process
has done whatever it liked*, and the state is `f`; `c` is what `m` should hold now. -/
inductive PrivateSince (t : Target) (p : Who) (m : MapMut) (f0 : Family) (c0 : Nat → Byte) :
    Family → (Nat → Byte) → Prop
  | start : PrivateSince t p m f0 c0 f0 c0
  | write {f c idx b k'} (before : PrivateSince t p m f0 c0 f c)
      (call : m.set (f.view p) idx b = .ok k') :
      PrivateSince t p m f0 c0 (f.act t p (.store (m.ptr + idx) b)) (fun j => if j = idx then b else c j)
  | spared {f c a} (before : PrivateSince t p m f0 c0 f c) (spares : Spares (f.view p) m a) :
      PrivateSince t p m f0 c0 (f.act t p a) c
  | theirs {f c a} (before : PrivateSince t p m f0 c0 f c) :
      PrivateSince t p m f0 c0 (f.act t p.other a) c

/-- `CommonSince t m f0 c0 f c`: in the state `f0` the memory `m` of both processes held the bytes `c0`;
since then both have stored to it, and done other things that leave its pages alone, and the state is
`f`; `c` is what `m` should hold now, in both. -/
inductive CommonSince (t : Target) (m : MapMut) (f0 : Family) (c0 : Nat → Byte) :
    Family → (Nat → Byte) → Prop
  | start : CommonSince t m f0 c0 f0 c0
  | write {f c p idx b k'} (before : CommonSince t m f0 c0 f c)
      (call : m.set (f.view p) idx b = .ok k') :
      CommonSince t m f0 c0 (f.act t p (.store (m.ptr + idx) b)) (fun j => if j = idx then b else c j)
  | spared {f c p a} (before : CommonSince t m f0 c0 f c) (spares : Spares (f.view p) m a) :
      CommonSince t m f0 c0 (f.act t p a) c

/-- `OverlaySince t p m o off f0 ov0 f ov`: in the state `f0` the copy-on-write map `m` of process `p`,
of the file `o` from byte `off` on, had the bytes `ov0` for itself (`none`: it shows the file's); since
then `p` has stored to it, and done other things that leave its pages alone, *the other process has
done whatever it liked* (but nobody has shortened the file), and the state is `f`; `ov` says which
bytes the map should have for itself now. -/
inductive OverlaySince (t : Target) (p : Who) (m : MapMut) (o : Obj) (off : Nat) (f0 : Family)
    (ov0 : Nat → Option Byte) : Family → (Nat → Option Byte) → Prop
  | start : OverlaySince t p m o off f0 ov0 f0 ov0
  | write {f ov idx b k'} (before : OverlaySince t p m o off f0 ov0 f ov)
      (call : m.set (f.view p) idx b = .ok k') :
      OverlaySince t p m o off f0 ov0 (f.act t p (.store (m.ptr + idx) b)) (fun j =>
        if j = idx then some b
        else if (m.ptr + j) / f.k.page = (m.ptr + idx) / f.k.page then
          some ((ov j).getD (f.k.data o (off + j)))
        else ov j)
  | spared {f ov a} (before : OverlaySince t p m o off f0 ov0 f ov) (spares : Spares (f.view p) m a)
      (grows : f.k.size o ≤ (f.act t p a).k.size o) :
      OverlaySince t p m o off f0 ov0 (f.act t p a) ov
  | theirs {f ov a} (before : OverlaySince t p m o off f0 ov0 f ov)
      (grows : f.k.size o ≤ (f.act t p.other a).k.size o) :
      OverlaySince t p m o off f0 ov0 (f.act t p.other a) ov

end Spec
end Vmap
