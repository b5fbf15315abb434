import Verif.Proofs.Arrives
import Verif.Props.RingCopy
/-
Property theorems C177: what a `BufWriter` delivers, and in which order, when the inner writer takes all it is given.
-/
namespace Vmap
open Kernel Spec
variable {τ : Type}

/-- C177: in a program in any reachable state, `qw` is in the buffer of a `BufWriter` (its ring is handle `j`) over a
writer that takes all it is given.  The pieces `ps` are written, each with `write_all` (as `write!` does), and then
the writer is flushed.  All this succeeds, the buffer is empty, and the inner writer has received exactly
`arrival cap qw ps`, in this order. -/
theorem C177_exact {tab : SysTable} {t : Target} {k0 : Kernel} (wf : Wf t k0) {w : World}
    (h : Reach tab t k0 w) {W : Writer τ} (hW : TakesGiven W) {j m : Nat}
    {b : BufWriter (τ × List WriteEvent)} (hj : w.held j = some (.ring b.buf m))
    {qw : List Byte} (hqw : b.buffered t w.k = .ok qw) (ps : List (List Byte)) (fuel rounds fuel' : Nat)
    (below : m + ps.flatten.length < posBound t (SeqWrite.writeCapacity b.buf)) :
    ∃ k' b' b'' ev, b.writeFmt W.spy t (fuel + 2) (rounds + 2) w.k ps = .ok (k', b', .ok ()) ∧
      b'.flush W.spy t (fuel' + 2) k' = .ok (b'', .ok ()) ∧ b''.buffered t k' = .ok [] ∧
      b''.inner.2 = b.inner.2 ++ ev ∧ received ev = arrival (SeqWrite.writeCapacity b.buf) qw ps := by
  obtain ⟨q1, sp, v⟩ := RingAt.view ((h.inv wf).live j _ hj).1
  rw [BufWriter.buffered, v.readSlice] at hqw
  injection hqw with hqw
  subst hqw
  exact fmt_all hW fuel rounds fuel' ps v below

/-- C177: which lengths are safe.  The bytes arrive in the order written, whatever they are, exactly if no piece that is
not empty fills the buffer to the last byte while there is something in it. -/
theorem C177_order_iff (cap l : Nat) (ns : List Nat) :
    NoFit cap l ns ↔ ∀ (q : List Byte) (ps : List (List Byte)), q.length = l → ps.map List.length = ns →
      arrival cap q ps = q ++ ps.flatten := by
  constructor
  · intro h q ps hq hp
    subst hq hp
    exact arrival_order ps h
  · intro h
    refine Classical.byContradiction fun hn => ?_
    obtain ⟨ps, h1, h2⟩ := arrival_fit ns hn
    exact h2 (h _ ps List.length_replicate h1)

/-- C177: the bytes arrive in the order written if no piece fills the buffer to the last byte while there is something
in it. -/
theorem C177_order {tab : SysTable} {t : Target} {k0 : Kernel} (wf : Wf t k0) {w : World}
    (h : Reach tab t k0 w) {W : Writer τ} (hW : TakesGiven W) {j m : Nat}
    {b : BufWriter (τ × List WriteEvent)} (hj : w.held j = some (.ring b.buf m))
    {qw : List Byte} (hqw : b.buffered t w.k = .ok qw) (ps : List (List Byte)) (fuel rounds fuel' : Nat)
    (below : m + ps.flatten.length < posBound t (SeqWrite.writeCapacity b.buf))
    (nofit : NoFit (SeqWrite.writeCapacity b.buf) qw.length (ps.map List.length)) :
    ∃ k' b' b'' ev, b.writeFmt W.spy t (fuel + 2) (rounds + 2) w.k ps = .ok (k', b', .ok ()) ∧
      b'.flush W.spy t (fuel' + 2) k' = .ok (b'', .ok ()) ∧ b''.inner.2 = b.inner.2 ++ ev ∧
      received ev = qw ++ ps.flatten := by
  obtain ⟨k', b', b'', ev, e1, e2, -, h3, h4⟩ := C177_exact wf h hW hj hqw ps fuel rounds fuel' below
  exact ⟨k', b', b'', ev, e1, e2, h3, by rw [h4, arrival_order ps nofit]⟩

/-- C177: and otherwise not: for all other lengths there are bytes which the program delivers out of order, from every
state whose buffer holds zeros. -/
theorem C177_order_broken {tab : SysTable} {t : Target} {k0 : Kernel} (wf : Wf t k0) {w : World}
    (h : Reach tab t k0 w) {W : Writer τ} (hW : TakesGiven W) {j m l : Nat}
    {b : BufWriter (τ × List WriteEvent)} (hj : w.held j = some (.ring b.buf m))
    (hqw : b.buffered t w.k = .ok (List.replicate l 0)) {ns : List Nat} (fuel rounds fuel' : Nat)
    (below : m + ns.sum < posBound t (SeqWrite.writeCapacity b.buf))
    (fit : ¬ NoFit (SeqWrite.writeCapacity b.buf) l ns) :
    ∃ ps, ps.map List.length = ns ∧
    ∃ k' b' b'' ev, b.writeFmt W.spy t (fuel + 2) (rounds + 2) w.k ps = .ok (k', b', .ok ()) ∧
      b'.flush W.spy t (fuel' + 2) k' = .ok (b'', .ok ()) ∧ b''.inner.2 = b.inner.2 ++ ev ∧
      received ev ≠ List.replicate l 0 ++ ps.flatten := by
  obtain ⟨ps, h1, h2⟩ := arrival_fit ns fit
  obtain ⟨k', b', b'', ev, e1, e2, -, h3, h4⟩ := C177_exact wf h hW hj hqw ps fuel rounds fuel'
    (by rw [List.length_flatten, h1]; exact below)
  exact ⟨ps, h1, k', b', b'', ev, e1, e2, h3, by rw [h4]; exact h2⟩

/-! ### Examples -/

-- with a capacity of 4: three pieces in order; a piece of 3 behind one of 1 overtakes it
example : NoFit 4 0 [2, 3, 5] ∧ arrival 4 [] [[1, 2], [3, 4, 5], [6, 7, 8, 9, 10]] = [1, 2, 3, 4, 5, 6, 7, 8, 9, 10] ∧
    ¬ NoFit 4 0 [1, 3] ∧ arrival 4 [] [[1], [2, 3, 4]] = [2, 3, 4, 1] := by decide

-- a fresh writer of capacity 8192 in a reachable state
example (tab : SysTable) : Wf ⟨.w64, true⟩ (demo 0) ∧
    ∃ (w : World) (b : BufWriter (Unit × List WriteEvent)), TakesGiven takesAll ∧
    Reach tab ⟨.w64, true⟩ (demo 0) w ∧ w.held 2 = some (.ring b.buf 0) ∧
    b.buffered ⟨.w64, true⟩ w.k = .ok (List.replicate 0 0) ∧
    0 + ([[1, 2], [3]] : List (List Byte)).flatten.length <
      posBound ⟨.w64, true⟩ (SeqWrite.writeCapacity b.buf) ∧
    NoFit (SeqWrite.writeCapacity b.buf) 0 (([[1, 2], [3]] : List (List Byte)).map List.length) ∧
    ¬ NoFit (SeqWrite.writeCapacity b.buf) 0 [2, 8190] ∧
    0 + [2, 8190].sum < posBound ⟨.w64, true⟩ (SeqWrite.writeCapacity b.buf) := by
  refine ⟨demo_wf 0, ?_⟩
  obtain ⟨w, a, b, c, d, h, h0, h1, h2, h3, lb, ld, fa, fc, fb, fd, wl⟩ := demo_filled tab
  have v := h.inv (demo_wf 0)
  refine ⟨w, ⟨b, ((), []), false⟩, ⟨fun _ _ => rfl, fun _ => rfl⟩, h, h2, new_empty (v.live 2 _ h2).1, ?_, ?_, ?_, ?_⟩
  · simp only [SeqWrite.writeCapacity, lb]; simp [posBound, Target.lim, Width.bits, lim64]
  · simp only [SeqWrite.writeCapacity, lb]; decide
  · simp only [SeqWrite.writeCapacity, lb]; decide
  · simp only [SeqWrite.writeCapacity, lb]; simp [posBound, Target.lim, Width.bits, lim64]

end Vmap
