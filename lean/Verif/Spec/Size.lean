/-
Specification vocabulary for C01–C05, C70: multiples and enclosing ranges, on plain
natural numbers.  Mentions nothing of the model.
-/
namespace Vmap.Spec

/-- `r` is the smallest multiple of `unit` that is at least `len`. -/
def IsRoundUp (unit len r : Nat) : Prop :=
  unit ∣ r ∧ len ≤ r ∧ ∀ m, unit ∣ m → len ≤ m → r ≤ m

/-- `r` is the largest multiple of `unit` that is at most `len`. -/
def IsRoundDown (unit len r : Nat) : Prop :=
  unit ∣ r ∧ r ≤ len ∧ ∀ m, unit ∣ m → m ≤ len → m ≤ r

/-- `[p, p+n)` is the smallest range made of whole units that contains `[ptr, ptr+len)`
and the unit of `ptr`'s position. -/
def IsEnclosing (unit ptr len p n : Nat) : Prop :=
  unit ∣ p ∧ unit ∣ n ∧ p ≤ ptr ∧ ptr + len ≤ p + n ∧
  ∀ p' n', unit ∣ p' → unit ∣ n' → p' ≤ ptr → ptr + len ≤ p' + n' →
    p' ≤ p ∧ p + n ≤ p' + n'

end Vmap.Spec
