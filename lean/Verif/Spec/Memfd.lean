import Verif.Model.Memfd
/-
What the names of shared-memory objects should look like.
-/
namespace Vmap
namespace Spec

/-- "/vmap-" in ASCII. -/
def shmPrefix : List Byte := [47, 118, 109, 97, 112, 45]

/-- The number that a string of ASCII digits denotes. -/
def number (d : List Byte) : Nat := d.foldl (fun a b => 10 * a + (b.toNat - 48)) 0

/-- "/vmap-" followed by seven decimal digits that denote `n`. -/
def ShmName (n : Nat) (name : List Byte) : Prop :=
  ∃ d, name = shmPrefix ++ d ∧ d.length = 7 ∧ (∀ b, b ∈ d → 48 ≤ b ∧ b ≤ 57) ∧ number d = n

/-- What the code takes from the clock: the last seven digits of the nanoseconds. -/
def clockDigits (now : Int) : Nat := now.toNat % 10000000

/-- The name object creation tries when the clock shows `now`. -/
def tried (now : Int) (name : List Byte) : Prop := ShmName (clockDigits now) name

end Spec
end Vmap
