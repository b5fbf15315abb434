import Verif.Spec.Map
/-
Vocabulary for the functions of the `os` module: raw calls on a range of pages.
-/
namespace Vmap
namespace Spec

/-- Page `q` (of `u` bytes) and the bytes `[a, a+len)` have a byte in common. -/
def Touches (u a len q : Nat) : Prop := a < (q + 1) * u ∧ q * u < a + len

/-- Exactly the pages that have bytes in common with `[a, a+len)` changed, each as `f` says;
all of them were mapped. -/
def ChangesPages (k k' : Kernel) (a len : Nat) (f : Pte → Pte) : Prop :=
  ∀ q, (Touches k.page a len q → ∃ e, k.pt q = some e ∧ k'.pt q = some (f e)) ∧
    (¬ Touches k.page a len q → k'.pt q = k.pt q)

/-- The access a caller asked for lets them store. -/
def CanStore (prot : Protect) : Prop := prot = .readWrite ∨ prot = .readCopy

/-- The hint of the OS for each piece of advice. -/
def hintOf : Advise → Madv
  | .normal => .normal
  | .sequential => .sequential
  | .random => .random
  | .willNeed => .willneed
  | .willNotNeed => .dontneed

end Spec
end Vmap
