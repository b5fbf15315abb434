import Verif.Model.WinGuard
/-
Specification vocabulary for C167.
-/
namespace Vmap.Spec

/-- Some of the `len` bytes from `pg` on is on the page of the address `a`. -/
def PageTouch (page pg len a : Nat) : Prop := ∃ x, pg ≤ x ∧ x < pg + len ∧ x / page = a / page

/-- May the page of `a` be written, after these calls of `os::protect` (latest first, with whether they
were granted)?  The latest one that was granted and was about the page decides. -/
inductive MayWrite (page a : Nat) : List (Nat × Nat × Protect × Bool) → Prop
  | never : MayWrite page a []
  | grants {pg len prot h} (on : PageTouch page pg len a) (rw_ : prot = .readWrite ∨ prot = .readCopy) :
      MayWrite page a ((pg, len, prot, true) :: h)
  | other {pg len prot ok h} (no : ok = false ∨ ¬ PageTouch page pg len a) (was : MayWrite page a h) :
      MayWrite page a ((pg, len, prot, ok) :: h)

/-- Only pages of views are protected, in full pages. -/
def Guarded (g : WinGuard) : Prop :=
  ∀ q, g.barred q = true → ∃ v, v ∈ g.win.views ∧ v.base ≤ q * g.win.page ∧ q * g.win.page < v.base + v.len

/-- The addresses an act is about are among the `len` bytes from `ptr` on. -/
def ActIn (ptr len : Nat) : WinGuard.Act → Prop
  | .protect _ _ _ => True
  | .load a => ptr ≤ a ∧ a < ptr + len
  | .store a _ => ptr ≤ a ∧ a < ptr + len

end Vmap.Spec
