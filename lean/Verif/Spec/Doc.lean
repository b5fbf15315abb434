import Verif.Model.Machine
/-
Specification for C154: how many bytes the lines of the documentation's examples take.
-/
namespace Vmap.Spec

/-- Bytes of the line `this is test line {i}\n`: 18 letters and spaces, the digits and the line
ending. -/
def lineBytes (i : Nat) : Nat :=
  19 + (if i < 10 then 1 else if i < 100 then 2 else if i < 1000 then 3 else if i < 10000 then 4
    else if i < 100000 then 5 else if i < 1000000 then 6 else if i < 10000000 then 7
    else if i < 100000000 then 8 else if i < 1000000000 then 9 else 10)

/-- Bytes of lines 1 to `n`. -/
def bytesUpTo : Nat → Nat
  | 0 => 0
  | n + 1 => bytesUpTo n + lineBytes (n + 1)

end Vmap.Spec
