import Verif.Proofs.CopyExact
import Verif.Props.Arrives
import Verif.Props.BufCopy
import Verif.Props.BufCopyInf
/-
Property theorems C172 and C174, exact form: what arrives when a ring is copied to a `BufWriter` whose inner writer takes
all it is given.
-/
namespace Vmap
open Kernel Spec
variable {τ : Type}

/-- C172, exactly: in a program in any reachable state, a `Ring` (handle `i`, with `qa` readable) is copied to a `BufWriter`
(handle `j`, with `qw` buffered) over a writer that takes all it is given, with a copy buffer of `size` bytes.  The copy
succeeds with the number of bytes, the ring is empty, and what has been received and what is buffered is, in this order, the
arrival of the pieces of `size` bytes into which `qa` is cut. -/
theorem C172_exact {tab : SysTable} {t : Target} {k0 : Kernel} (wf : Wf t k0) {w : World}
    (h : Reach tab t k0 w) {W : Writer τ} (hW : TakesGiven W) {i j n m : Nat} (hij : i ≠ j) {a : Ring}
    {b : BufWriter (τ × List WriteEvent)} (hi : w.held i = some (.ring a n)) (hj : w.held j = some (.ring b.buf m))
    {qa qw : List Byte} (hqa : a.fillBuf t w.k = .ok qa) (hqw : b.buffered t w.k = .ok qw)
    (fuel rounds : Nat) {size steps : Nat} (pos : 0 < size) (enough : qa.length < steps)
    (below : m + steps * ((rounds + 2) * SeqWrite.writeCapacity b.buf) + qa.length <
      posBound t (SeqWrite.writeCapacity b.buf)) :
    ∃ a' b' qw' ew w',
      Ring.copyToWriter W.spy t (fuel + 2) (rounds + 2) size steps w.k a b 0 = .ok (w'.k, a', b', .ok qa.length) ∧
      OnlyCalls tab t (fun l => l = i ∨ l = j) w w' ∧ a'.fillBuf t w'.k = .ok [] ∧ b'.buffered t w'.k = .ok qw' ∧
      b'.inner.2 = b.inner.2 ++ ew ∧
      received ew ++ qw' = arrival (SeqWrite.writeCapacity b.buf) qw (cut size steps qa) := by
  obtain ⟨s, g, hm, f, -⟩ := h.holdsRing wf hi
  rw [hqa] at f
  injection f with f
  subst f hm
  obtain ⟨a', b', m', qw', ew, w', e, c, ⟨s', h1, g1, h3⟩, h2, h4, h5, h6⟩ :=
    ring_to_writer_all wf hW fuel rounds pos hij (cap := a.len) steps h ⟨s, hi, g, rfl⟩ hj hqw below enough 0
  exact ⟨a', b', qw', ew, w', by rw [e, Nat.zero_add], c, by rw [g1.shows h1, h3], h4, h5, h6⟩

/-- C174, exactly: the same for an `InfiniteRing`. -/
theorem C174_exact {tab : SysTable} {t : Target} {k0 : Kernel} (wf : Wf t k0) {w : World}
    (h : Reach tab t k0 w) {W : Writer τ} (hW : TakesGiven W) {i j n m : Nat} (hij : i ≠ j) {a : InfiniteRing}
    {b : BufWriter (τ × List WriteEvent)} (hi : w.held i = some (.inf a n)) (hj : w.held j = some (.ring b.buf m))
    {qa qw : List Byte} (hqa : a.fillBuf t w.k = .ok qa) (hqw : b.buffered t w.k = .ok qw)
    (fuel rounds : Nat) {size steps : Nat} (pos : 0 < size) (enough : qa.length < steps)
    (below : m + steps * ((rounds + 2) * SeqWrite.writeCapacity b.buf) + qa.length <
      posBound t (SeqWrite.writeCapacity b.buf)) :
    ∃ a' b' qw' ew w',
      InfiniteRing.copyToWriter W.spy t (fuel + 2) (rounds + 2) size steps w.k a b 0 =
        .ok (w'.k, a', b', .ok qa.length) ∧
      OnlyCalls tab t (fun l => l = i ∨ l = j) w w' ∧ a'.fillBuf t w'.k = .ok [] ∧ b'.buffered t w'.k = .ok qw' ∧
      b'.inner.2 = b.inner.2 ++ ew ∧
      received ew ++ qw' = arrival (SeqWrite.writeCapacity b.buf) qw (cut size steps qa) := by
  obtain ⟨s, g, hm, f⟩ := h.holdsInf wf hi
  rw [hqa] at f
  injection f with f
  subst f hm
  obtain ⟨a', b', m', qw', ew, w', e, c, ⟨s', h1, g1, h3⟩, h2, h4, h5, h6⟩ :=
    inf_to_writer_all wf hW fuel rounds pos hij (cap := a.len) steps h ⟨s, hi, g, rfl⟩ hj hqw below enough 0
  exact ⟨a', b', qw', ew, w', by rw [e, Nat.zero_add], c, by rw [g1.shows h1, h3], h4, h5, h6⟩

/-! ### Examples -/

-- ten bytes in pieces of three through a buffer of six: the second and third pieces overtake the first
example : cut 3 11 [0, 1, 2, 3, 4, 5, 6, 7, 8, 9] = [[0, 1, 2], [3, 4, 5], [6, 7, 8], [9]] ∧
    arrival 6 [] (cut 3 11 [0, 1, 2, 3, 4, 5, 6, 7, 8, 9]) = [3, 4, 5, 6, 7, 8, 0, 1, 2, 9] ∧
    arrival 7 [] (cut 3 11 [0, 1, 2, 3, 4, 5, 6, 7, 8, 9]) = [0, 1, 2, 3, 4, 5, 6, 7, 8, 9] := by decide

-- a ring with 10000 bytes, an infinite ring with 3000, and a fresh writer of capacity 8192
example (tab : SysTable) : Wf ⟨.w64, true⟩ (demo 0) ∧
    ∃ (w : World) (a : Ring) (c : InfiniteRing) (b : BufWriter (Unit × List WriteEvent)), TakesGiven takesAll ∧
    Reach tab ⟨.w64, true⟩ (demo 0) w ∧ w.held 0 = some (.ring a 10000) ∧ w.held 1 = some (.inf c 3000) ∧
    w.held 2 = some (.ring b.buf 0) ∧ (0 : Nat) ≠ 2 ∧ (1 : Nat) ≠ 2 ∧
    a.fillBuf ⟨.w64, true⟩ w.k = .ok (List.replicate 10000 7) ∧
    c.fillBuf ⟨.w64, true⟩ w.k = .ok (List.replicate 3000 5) ∧ b.buffered ⟨.w64, true⟩ w.k = .ok [] ∧
    (List.replicate 10000 (7 : Byte)).length < 10001 ∧ (List.replicate 3000 (5 : Byte)).length < 10001 ∧
    0 + 10001 * ((0 + 2) * SeqWrite.writeCapacity b.buf) + 10000 <
      posBound ⟨.w64, true⟩ (SeqWrite.writeCapacity b.buf) := by
  refine ⟨demo_wf 0, ?_⟩
  obtain ⟨w, a, b, c, d, h, h0, h1, h2, h3, lb, ld, fa, fc, fb, fd, wl⟩ := demo_filled tab
  have v := h.inv (demo_wf 0)
  refine ⟨w, a, c, ⟨b, ((), []), false⟩, ⟨fun _ _ => rfl, fun _ => rfl⟩, h, h0, h1, h2, by decide, by decide, fa, fc,
    new_empty (v.live 2 _ h2).1, ?_, ?_, ?_⟩
  · rw [List.length_replicate]; decide
  · rw [List.length_replicate]; decide
  · simp only [SeqWrite.writeCapacity, lb]; simp [posBound, Target.lim, Width.bits, lim64]

end Vmap
