import Verif.Proofs.CopyBoth
import Verif.Props.CopyExact
import Verif.Props.Copy
/-
Property theorem C127, exact form: what arrives when a `BufReader` is copied to a `BufWriter` whose inner writer takes all
it is given.
-/
namespace Vmap
open Kernel Spec
variable {σ τ : Type}

/-- C127, exactly: in a program in any reachable state, a `BufReader` (handle `i`, with `qr` buffered) over any honest
reader is copied to a `BufWriter` (handle `j`, with `qw` buffered) over a writer that takes all it is given; the copy
buffers are of at most `size` bytes.  Then nothing that was read is lost, however the reader behaves: it is what was
moved, in pieces `ps`, none empty and none longer than a copy buffer, and what is still in the reader's buffer.  What has
been received and what is buffered is, in this order, the arrival of these pieces; this is the order read if no piece
exactly fills the writer's buffer while there is something in it.  `Ok(n)`: everything up to end of file was moved and
`n` is its length.  An error or panic is the reader's; and every round moves a piece or meets an interrupted read. -/
theorem C127_exact {tab : SysTable} {t : Target} {k0 : Kernel} (wf : Wf t k0) {w : World}
    (h : Reach tab t k0 w) (R : Reader σ) (hR : R.Honest) {W : Writer τ} (hW : TakesGiven W)
    {i j n m : Nat} (hij : i ≠ j) {r : BufReader (σ × List ReadEvent)}
    {b : BufWriter (τ × List WriteEvent)} (hi : w.held i = some (.ring r.buf n))
    (hj : w.held j = some (.ring b.buf m)) {qr qw : List Byte} (hqr : r.buffer t w.k = .ok qr)
    (hqw : b.buffered t w.k = .ok qw) (fuel rounds steps : Nat) {size : Nat} (dst : Nat → List Byte)
    (hd : ∀ i, dst i ≠ []) (hs : ∀ i, (dst i).length ≤ size)
    (belowr : n + steps * SeqWrite.writeCapacity r.buf < posBound t (SeqWrite.writeCapacity r.buf))
    (beloww : m + steps * ((rounds + 2) * SeqWrite.writeCapacity b.buf) + size <
      posBound t (SeqWrite.writeCapacity b.buf)) :
    ∃ r' b' x qr' qw' er ew ps w',
      ioCopy R.spy W.spy t (fuel + 2) (rounds + 2) steps dst w.k r b 0 = .ok (w'.k, r', b', x) ∧
      OnlyCalls tab t (fun l => l = i ∨ l = j) w w' ∧
      r'.buffer t w'.k = .ok qr' ∧ b'.buffered t w'.k = .ok qw' ∧
      r'.inner.2 = r.inner.2 ++ er ∧ b'.inner.2 = b.inner.2 ++ ew ∧
      (∀ p ∈ ps, p ≠ [] ∧ p.length ≤ size) ∧ qr ++ taken er = ps.flatten ++ qr' ∧
      received ew ++ qw' = arrival (SeqWrite.writeCapacity b.buf) qw ps ∧
      (NoFit (SeqWrite.writeCapacity b.buf) qw.length (ps.map List.length) →
        received ew ++ qw' = qw ++ ps.flatten) ∧
      match x with
      | .ok c => c = ps.flatten.length ∧ qr' = [] ∧ SaidEof er
      | .err e => SaidErr er e
      | .unwound => SaidPanic er
      | .pending => steps = ps.length + interrupts er := by
  obtain ⟨r', b', x, n', m', qr', qw', er, ew, ps, w', e, c, -, -, h1, h2, h3, h4, h5, h6, h7, res⟩ :=
    reader_to_writer_all wf R hR hW fuel rounds hij steps dst hd hs h hi hj hqr hqw belowr beloww 0
  refine ⟨r', b', x, qr', qw', er, ew, ps, w', e, c, h1, h2, h3, h4, h5, h6, h7,
    fun nofit => by rw [h7]; exact arrival_order ps nofit, ?_⟩
  cases x with
  | ok c => simpa only [Nat.zero_add] using res
  | err e => exact res
  | unwound => exact res
  | pending => exact res

/-! ### Examples -/

-- a reader that hands out pieces and a writer that takes everything, with rings of 16384 and 8192 bytes
example (tab : SysTable) : Wf ⟨.w64, true⟩ (demo 0) ∧
    ∃ (w : World) (r : BufReader (List (List Byte) × List ReadEvent)) (b : BufWriter (Unit × List WriteEvent)),
    pieces.Honest ∧ TakesGiven takesAll ∧
    Reach tab ⟨.w64, true⟩ (demo 0) w ∧ w.held 0 = some (.ring r.buf 0) ∧
    w.held 2 = some (.ring b.buf 0) ∧ (0 : Nat) ≠ 2 ∧
    r.buffer ⟨.w64, true⟩ w.k = .ok [] ∧ b.buffered ⟨.w64, true⟩ w.k = .ok [] ∧
    (∀ i : Nat, (fun _ => [0, 0, 0] : Nat → List Byte) i ≠ []) ∧
    (∀ i : Nat, ((fun _ => [0, 0, 0] : Nat → List Byte) i).length ≤ 3) ∧
    0 + 20000 * SeqWrite.writeCapacity r.buf < posBound ⟨.w64, true⟩ (SeqWrite.writeCapacity r.buf) ∧
    0 + 20000 * ((0 + 2) * SeqWrite.writeCapacity b.buf) + 3 <
      posBound ⟨.w64, true⟩ (SeqWrite.writeCapacity b.buf) := by
  refine ⟨demo_wf 0, ?_⟩
  obtain ⟨w, a, b, c, d, h, h0, h1, h2, h3, la, lc, lb, ld⟩ := demo_rings tab
  have v := h.inv (demo_wf 0)
  refine ⟨w, ⟨a, ([[1], [2, 3]], []), 0⟩, ⟨b, ((), []), false⟩, ?_, ⟨fun _ _ => rfl, fun _ => rfl⟩, h, h0, h2,
    by decide, new_empty (v.live 0 _ h0).1, new_empty (v.live 2 _ h2).1, by simp, by simp, ?_, ?_⟩
  · intro s off
    cases s with
    | nil => simp [pieces]
    | cons c cs => by_cases h : c.length ≤ off.length <;> simp [pieces, h]
  · simp only [SeqWrite.writeCapacity, la]; simp [posBound, Target.lim, Width.bits, lim64]
  · simp only [SeqWrite.writeCapacity, lb]; simp [posBound, Target.lim, Width.bits, lim64]

end Vmap
