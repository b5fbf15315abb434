import Verif.Spec.Queue
/-
Specification vocabulary for C170.
-/
namespace Vmap
namespace Spec

/-- `bs` is the first of the slices that is not empty (or empty, if all are). -/
inductive FirstFull : List (List Byte) → List Byte → Prop
  | none : FirstFull [] []
  | here {b : List Byte} {rest : List (List Byte)} (full : b ≠ []) : FirstFull (b :: rest) b
  | later {b : List Byte} {rest : List (List Byte)} (before : FirstFull rest b) : FirstFull ([] :: rest) b

/-- The same for lengths. -/
inductive FirstLen : List Nat → Nat → Prop
  | none : FirstLen [] 0
  | here {n : Nat} {rest : List Nat} (full : n ≠ 0) : FirstLen (n :: rest) n
  | later {n : Nat} {rest : List Nat} (before : FirstLen rest n) : FirstLen (0 :: rest) n

end Spec
end Vmap
