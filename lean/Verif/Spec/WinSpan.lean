import Verif.Spec.Span
import Verif.Model.Windows
/-
Specification vocabulary for C166: memory of a process on Windows that can be read and written.
-/
namespace Vmap.Spec

/-- The `len` bytes at `ptr` lie in the view `v`, they can be read, and they can be written: either
through to the section (of which the process has no copies of its own), or to such copies. -/
structure WinWritable (s : Vmap.Win) (ptr len : Nat) (v : WinView) : Prop where
  look : ∀ i, i < len → s.look (ptr + i) = some v
  can : (v.access.write = true ∧ ∀ a, s.bytes.own v.sec.id a = none) ∨
    (v.access.write = false ∧ v.access.copy = true)
  loads : ∀ i, i < len → ∃ b, s.load (ptr + i) = .ok b

end Vmap.Spec
