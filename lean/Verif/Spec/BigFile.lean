import Verif.Spec.Map
/-
Specification vocabulary for C32 and C35 with files of any length: what happens when the code only
sees the length modulo the address space.
-/
namespace Vmap.Spec

/-- The length of a file of `size` bytes after truncation, if it looks as if it had `seen` bytes: a
file that looks empty is not truncated. -/
def cutLen (truncate : Bool) (size seen : Nat) : Nat :=
  if truncate = true ∧ 0 < seen then 0 else size

/-- The length of a file of `size` bytes after truncation and `resize`, if it looks as if it had
`seen` bytes. -/
def leftLen (truncate : Bool) (resize : Extent) (size seen : Nat) : Nat :=
  match resize with
  | .exact n => n
  | .min n => if (if truncate then 0 else seen) < n then n else cutLen truncate size seen
  | .max n => if n < (if truncate then 0 else seen) then n else cutLen truncate size seen
  | .endOf => cutLen truncate size seen

end Vmap.Spec
