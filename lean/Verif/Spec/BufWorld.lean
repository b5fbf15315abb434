import Verif.Spec.World
import Verif.Spec.Buffer
/-
Buffered readers and writers inside whole programs (C93).
-/
namespace Vmap
open Kernel Spec

/-- Between the kernel of `w` and `k'`, nothing the program can observe has changed except the
memory of handle `j`: nothing was mapped, unmapped, locked or protected, no file was opened, closed,
renamed, resized, modified or written to storage, and every byte of every other map and ring is
as it was. -/
structure OnlyHandle (w : World) (k' : Kernel) (j : Nat) : Prop where
  pt : k'.pt = w.k.pt
  fds : k'.fds = w.k.fds
  names : k'.names = w.k.names
  size : k'.size = w.k.size
  disk : k'.disk = w.k.disk
  opened : ∀ d f, w.k.fds d = some f → k'.data f.obj = w.k.data f.obj
  named : ∀ s o, w.k.names s = some o → k'.data o = w.k.data o
  others : ∀ i x, i ≠ j → w.held i = some x → ∀ a, x.base ≤ a → a < x.base + x.bytes →
    k'.load a = w.k.load a

end Vmap
