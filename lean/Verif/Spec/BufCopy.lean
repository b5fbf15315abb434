import Verif.Spec.World
/-
Specification vocabulary for C171.
-/
namespace Vmap
namespace Spec

/-- From `w` to `w'`, no map or ring has come, gone, moved or changed what it shows, except that of handles
`i` and `j`. -/
def Besides (i j : Nat) (w w' : World) : Prop :=
  ∀ l, l ≠ i → l ≠ j → w'.held l = w.held l ∧
    ∀ x, w.held l = some x → ∀ a, x.base ≤ a → a < x.base + x.bytes → w'.k.load a = w.k.load a

end Spec
end Vmap
