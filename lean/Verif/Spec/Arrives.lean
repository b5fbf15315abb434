import Verif.Spec.Buffer
/-
What a `BufWriter` delivers, and in which order, when the inner writer takes all it is given (C177).
-/
namespace Vmap.Spec
variable {τ : Type}

/-- The inner writer takes all it is given, like a `Vec` or a socket with room, and its `flush` succeeds. -/
structure TakesGiven (W : Writer τ) : Prop where
  write : ∀ s data, (W.write s data).2 = .ok data.length
  flush : ∀ s, (W.flush s).2 = .ok

/-- `p` is given to a buffer of `cap` bytes which holds `q`: what goes on to the inner writer, and what is kept.
Less than fills it: it is kept.  Exactly fills it: it goes on at once.  More: what was held goes on, and `p` is kept
unless it is as long as the buffer. -/
def arrive (cap : Nat) (q p : List Byte) : List Byte × List Byte :=
  if q.length + p.length < cap then ([], q ++ p)
  else if q.length + p.length = cap then (p, q)
  else if p.length < cap then (q, p)
  else (q ++ p, [])

/-- All that has arrived after the pieces were given and the rest was flushed. -/
def arrival (cap : Nat) : List Byte → List (List Byte) → List Byte
  | q, [] => q
  | q, p :: ps => (arrive cap q p).1 ++ arrival cap (arrive cap q p).2 ps

/-- The fill level after a piece of `n` bytes. -/
def level (cap l n : Nat) : Nat :=
  if l + n < cap then l + n else if l + n = cap then l else if n < cap then n else 0

/-- No piece exactly fills the buffer while there is something in it; `l` is the fill level and `ns` are the lengths of
the pieces. -/
def NoFit (cap : Nat) : Nat → List Nat → Prop
  | _, [] => True
  | l, n :: ns => ¬ (0 < l ∧ 0 < n ∧ l + n = cap) ∧ NoFit cap (level cap l n) ns

instance decNoFit (cap : Nat) : ∀ (l : Nat) (ns : List Nat), Decidable (NoFit cap l ns)
  | _, [] => isTrue trivial
  | l, n :: ns => by
    have := decNoFit cap (level cap l n) ns
    unfold NoFit
    infer_instance

/-- `q` cut into pieces of `size` bytes, the last one as long as it comes; at most `n` pieces. -/
def cut (size : Nat) : Nat → List Byte → List (List Byte)
  | 0, _ => []
  | n + 1, q => if q = [] then [] else q.take size :: cut size n (q.drop size)

end Vmap.Spec
