import Verif.Model.RingShm
/-
Specification vocabulary for C94.
-/
namespace Vmap
open Kernel

/-- `Tries n k k'`: `n` calls of `shm_open` failed because the name exists (or somebody else got hold of
it first), and nothing else happened between `k` and `k'`. -/
def Tries (n : Nat) (k k' : Kernel) : Prop :=
  k' = { k with
    tick := k.tick + n
    log := List.replicate n ⟨.memfd, .error EEXIST⟩ ++ k.log }

end Vmap
