import Verif.Proofs.BufCopyInf
import Verif.Props.RingCopy
/-
Property theorems C173 and C174: `std::io::copy` from a `BufReader` to an `InfiniteRing` and from an `InfiniteRing` to a
`BufWriter`.
-/
namespace Vmap
open Kernel Spec
variable {σ τ : Type}

/-- C173: a program in any reachable state copies from a `BufReader` (its ring is handle `i`, with `qr` buffered) to an
`InfiniteRing` (handle `j`, with `qb` readable), over any honest inner reader and with a copy buffer of any size.  The
ring never refuses: whatever happens, the bytes read are those moved (`moved`) and those still in the reader's buffer,
nothing is lost on the way, and the ring holds the last bytes of `qb` and `moved`, as many as it has capacity for.
`Ok(n)`: everything up to end of file was moved and `n` is its length, however little of it the ring still holds.  An
error or panic is the inner reader's.  Nothing is done but to call functions of the two rings. -/
theorem C173_reader_to_infinite {tab : SysTable} {t : Target} {k0 : Kernel} (wf : Wf t k0) {w : World}
    (h : Reach tab t k0 w) (R : Reader σ) (hR : R.Honest) {i j n m : Nat} (hij : i ≠ j)
    {r : BufReader (σ × List ReadEvent)} {b : InfiniteRing} (hi : w.held i = some (.ring r.buf n))
    (hj : w.held j = some (.inf b m)) {qr qb : List Byte} (hqr : r.buffer t w.k = .ok qr)
    (hqb : b.fillBuf t w.k = .ok qb) (steps : Nat) (dst : Nat → List Byte) (hd : ∀ i, dst i ≠ [])
    (belowr : n + steps * SeqWrite.writeCapacity r.buf < posBound t (SeqWrite.writeCapacity r.buf))
    (belowb : m + steps * SeqWrite.writeCapacity b < posBound t (SeqWrite.writeCapacity b)) :
    ∃ r' b' x n' m' qr' er moved w',
      BufReader.copyToInfinite R.spy t steps dst w.k r b 0 = .ok (w'.k, r', b', x) ∧
      OnlyCalls tab t (fun l => l = i ∨ l = j) w w' ∧ Reach tab t k0 w' ∧
      w'.held i = some (.ring r'.buf n') ∧ w'.held j = some (.inf b' m') ∧
      r'.buffer t w'.k = .ok qr' ∧ b'.fillBuf t w'.k = .ok (lastN (SeqWrite.writeCapacity b) (qb ++ moved)) ∧
      r'.inner.2 = r.inner.2 ++ er ∧ qr ++ taken er = moved ++ qr' ∧
      match x with
      | .ok c => c = moved.length ∧ qr' = [] ∧ SaidEof er
      | .err e => SaidErr er e
      | .unwound => SaidPanic er
      | .pending => steps ≤ moved.length + interrupts er := by
  obtain ⟨s, g, hm, f⟩ := h.holdsInf wf hj
  rw [hqb] at f
  injection f with f
  subst f hm
  obtain ⟨r', b', x, n', s', qr', er, moved, w', e, c, h1, h2, hs, sq, h3, h4, h5, res⟩ :=
    reader_to_inf wf R hR hij (cap := b.len) steps dst hd h hi hj g hqr belowr belowb 0
  refine ⟨r', b', x, n', _, qr', er, moved, w', e, c, c.reach h, h1, h2, h3, by rw [hs.shows h2, sq]; rfl, h4, h5, ?_⟩
  cases x with
  | ok c => simpa only [Nat.zero_add] using res
  | err e => exact res
  | unwound => exact res
  | pending => exact res

/-- C174: from an `InfiniteRing` (handle `i`, with `qa` readable) to a `BufWriter` (its ring is handle `j`, with `qw`
buffered), over any honest inner writer.  As `C172_ring_to_writer_partial`.

Full statement (false, see `C174_order_false`): the order is always kept. -/
theorem C174_infinite_to_writer_partial {tab : SysTable} {t : Target} {k0 : Kernel} (wf : Wf t k0) {w : World}
    (h : Reach tab t k0 w) (W : Writer τ) (hW : W.Honest) {i j n m : Nat} (hij : i ≠ j) {a : InfiniteRing}
    {b : BufWriter (τ × List WriteEvent)} (hi : w.held i = some (.inf a n)) (hj : w.held j = some (.ring b.buf m))
    {qa qw : List Byte} (hqa : a.fillBuf t w.k = .ok qa) (hqw : b.buffered t w.k = .ok qw)
    (fuel rounds steps : Nat) {size : Nat} (pos : 0 < size)
    (below : m + steps * (rounds * SeqWrite.writeCapacity b.buf) < posBound t (SeqWrite.writeCapacity b.buf)) :
    ∃ a' b' x n' m' qa' qw' ew moved lost w',
      InfiniteRing.copyToWriter W.spy t fuel rounds size steps w.k a b 0 = .ok (w'.k, a', b', x) ∧
      OnlyCalls tab t (fun l => l = i ∨ l = j) w w' ∧ Reach tab t k0 w' ∧
      w'.held i = some (.inf a' n') ∧ w'.held j = some (.ring b'.buf m') ∧
      a'.fillBuf t w'.k = .ok qa' ∧ b'.buffered t w'.k = .ok qw' ∧ b'.inner.2 = b.inner.2 ++ ew ∧
      qa = moved ++ lost ++ qa' ∧ (received ew ++ qw').Perm (qw ++ moved) ∧
      ((qw = [] ∧ qa.length ≤ size) ∨ qw.length + qa.length < SeqWrite.writeCapacity b.buf →
        received ew ++ qw' = qw ++ moved) ∧
      match x with
      | .ok c => c = qa.length ∧ moved = qa ∧ lost = [] ∧ qa' = []
      | .err e => lost ≠ [] ∧ WriteFailed ew e ∧ e.kind ≠ .interrupted
      | .unwound => lost ≠ [] ∧ WritePanicked ew
      | .pending => steps ≤ moved.length ∨ rounds ≤ moved.length + refused ew ∨
          fuel ≤ SeqWrite.writeCapacity b.buf + refused ew := by
  obtain ⟨s, g, hm, f⟩ := h.holdsInf wf hi
  rw [hqa] at f
  injection f with f
  subst f hm
  obtain ⟨a', b', x, m', qa', qw', ew, moved, lost, w', e, c, ⟨s', h1, g1, h3⟩, h2, h4, -, h5, h6, h7, h8, res⟩ :=
    inf_to_writer wf W hW fuel rounds pos hij (cap := a.len) steps h ⟨s, hi, g, rfl⟩ hj hqw below 0
  refine ⟨a', b', x, _, m', qa', qw', ew, moved, lost, w', e, c, c.reach h, h1, h2, by rw [g1.shows h1, h3], h4, h5,
    h6, h7, fun hc => h8 (.inr hc), ?_⟩
  cases x with
  | ok c =>
    obtain ⟨g1, g2, g3⟩ := res
    rw [g2, g3, List.append_nil, List.append_nil] at h6
    exact ⟨by rw [g1, h6, Nat.zero_add], h6.symm, g2, g3⟩
  | err e => exact res
  | unwound => exact res
  | pending => exact res

/-- C174: a copy that succeeds followed by a `flush` that succeeds delivers to the inner writer exactly the bytes that
were in the writer's buffer and in the ring, each once; in order under the condition of
`C174_infinite_to_writer_partial`.

Full statement (false, see `C174_order_false`): the order is always kept. -/
theorem C174_delivered_partial {tab : SysTable} {t : Target} {k0 : Kernel} (wf : Wf t k0) {w : World}
    (h : Reach tab t k0 w) (W : Writer τ) (hW : W.Honest) {i j n m : Nat} (hij : i ≠ j) {a a' : InfiniteRing}
    {b b' b'' : BufWriter (τ × List WriteEvent)} (hi : w.held i = some (.inf a n))
    (hj : w.held j = some (.ring b.buf m)) {qa qw : List Byte} (hqa : a.fillBuf t w.k = .ok qa)
    (hqw : b.buffered t w.k = .ok qw) (fuel rounds steps : Nat) {size : Nat} (pos : 0 < size)
    (below : m + steps * (rounds * SeqWrite.writeCapacity b.buf) < posBound t (SeqWrite.writeCapacity b.buf))
    {k' : Kernel} {c fuel' : Nat}
    (copied : InfiniteRing.copyToWriter W.spy t fuel rounds size steps w.k a b 0 = .ok (k', a', b', .ok c))
    (flushed : b'.flush W.spy t fuel' k' = .ok (b'', .ok ())) :
    ∃ ew, b''.inner.2 = b.inner.2 ++ ew ∧ c = qa.length ∧ a'.fillBuf t k' = .ok [] ∧ b''.buffered t k' = .ok [] ∧
      (received ew).Perm (qw ++ qa) ∧
      ((qw = [] ∧ qa.length ≤ size) ∨ qw.length + qa.length < SeqWrite.writeCapacity b.buf →
        received ew = qw ++ qa) := by
  obtain ⟨a1, b1, x, n', m', qa', qw', ew, moved, lost, w', e, -, rc, h1, h2, h3, h4, h5, h6, h7, h8, res⟩ :=
    C174_infinite_to_writer_partial wf h W hW hij hi hj hqa hqw fuel rounds steps pos below
  rw [copied] at e
  injection e with e; injection e with e1 e; injection e with e2 e; injection e with e3 e
  subst e1 e2 e3 e
  obtain ⟨hc, hm, hl, hq⟩ := res
  subst hm hl hq
  obtain ⟨q1, sp, v⟩ := RingAt.view ((rc.inv wf).live j _ h2).1
  rw [BufWriter.buffered, v.readSlice] at h4
  injection h4 with h4
  subst h4
  obtain ⟨b2, y, ev, q2, sp2, e2, v2, -, -, lg, hx⟩ := bw_flush_view W v fuel'
  rw [flushed] at e2
  injection e2 with e2; injection e2 with e2 e3
  subst e2 e3
  rcases hx with ⟨hx, -⟩ | ⟨ev1, r, g1, g2, g3, -⟩
  · exact absurd rfl hx
  subst g3
  have hs := g2.split
  rw [List.append_nil] at hs
  have hrec : received (ew ++ ev) = received ew ++ q1 := by
    rw [g1, hs, received_append, received_append, received_one]
    simp [WriteEvent.bytes]
  exact ⟨ew ++ ev, by rw [lg, h5, List.append_assoc], hc, h3, v2.readSlice, by rw [hrec]; exact h7,
    fun hcond => by rw [hrec]; exact h8 hcond⟩

/-- C174, why the order is not always kept: as `C172_order_false`, in a program with an `InfiniteRing`. -/
theorem C174_order_false {tab : SysTable} {t : Target} {k0 : Kernel} (wf : Wf t k0) {w : World}
    (h : Reach tab t k0 w) {i j n m : Nat} {a : InfiniteRing} {b : BufWriter (Unit × List WriteEvent)}
    (hi : w.held i = some (.inf a n)) (hj : w.held j = some (.ring b.buf m))
    {qa qw : List Byte} (hqa : a.fillBuf t w.k = .ok qa)
    (hqw : b.buffered t w.k = .ok qw) (log : b.inner.2 = []) (some_ : qa ≠ []) (held : qw ≠ [])
    (fit : b.buf.writeLen t = .ok qa.length) {size : Nat} (one : qa.length ≤ size) (fuel rounds steps fuel' : Nat) :
    ∃ a' b' b'', InfiniteRing.copyToWriter takesAll.spy t fuel (rounds + 2) size (steps + 2) w.k a b 0 =
        .ok (w.k, a', b', .ok qa.length) ∧
      b'.flush takesAll.spy t (fuel' + 2) w.k = .ok (b'', .ok ()) ∧ received b''.inner.2 = qa ++ qw := by
  obtain ⟨q1, sp, v⟩ := RingAt.view ((h.inv wf).live j _ hj).1
  rw [BufWriter.buffered, v.readSlice] at hqw
  injection hqw with hqw
  subst hqw
  obtain ⟨s, g, hm, f⟩ := h.holdsInf wf hi
  rw [hqa] at f
  injection f with f
  subst f hm
  rw [v.writeLen] at fit
  injection fit with fit
  have hpos := List.length_pos_iff.mpr some_
  have src := inf_source (tab := tab) (k0 := k0) wf i a.len
  obtain ⟨a1, w1, e1, k1, c1, hi1⟩ := src.read h ⟨s, hi, g, rfl⟩ size
  rw [List.drop_eq_nil_of_le one] at hi1
  obtain ⟨a2, w2, e2, k2, c2, hi2⟩ := src.read (c1.reach h) hi1 size
  rw [List.take_of_length_le one] at e1
  rw [List.take_nil, k1] at e2
  have hw := writeAll_exact (k := w.k) (fuel := fuel) (rounds := rounds) v some_ fit.symm
  obtain ⟨b2, ef, hf⟩ := flush_takesAll
    (b := { b with inner := ((), b.inner.2 ++ [.write s.q (.ok s.q.length)]), panicked := false }) v held fuel'
  refine ⟨a2, _, b2, ?_, ef, ?_⟩
  · rw [InfiniteRing.copyToWriter, e1]
    simp only [bind, Except.bind]
    rw [if_neg (by omega), if_neg (by omega), hw]
    simp only
    rw [InfiniteRing.copyToWriter, e2]
    simp [bind, Except.bind, pure, Except.pure]
  · rw [hf, log]
    simp [received, WriteEvent.bytes]

/-! ### Examples -/

-- a program with a reader of capacity 8192 and an infinite ring of capacity 4096 with 3000 bytes readable
example (tab : SysTable) : Wf ⟨.w64, true⟩ (demo 0) ∧
    ∃ (w : World) (r : BufReader (List (List Byte) × List ReadEvent)) (b : InfiniteRing),
    Reach tab ⟨.w64, true⟩ (demo 0) w ∧ pieces.Honest ∧ (2 : Nat) ≠ 1 ∧
    w.held 2 = some (.ring r.buf 0) ∧ w.held 1 = some (.inf b 3000) ∧
    r.buffer ⟨.w64, true⟩ w.k = .ok [] ∧ b.fillBuf ⟨.w64, true⟩ w.k = .ok (List.replicate 3000 5) ∧
    0 + 1000 * SeqWrite.writeCapacity r.buf < posBound ⟨.w64, true⟩ (SeqWrite.writeCapacity r.buf) := by
  refine ⟨demo_wf 0, ?_⟩
  obtain ⟨w, a, b, c, d, h, h0, h1, h2, h3, lb, ld, fa, fc, fb, fd, wl⟩ := demo_filled tab
  have v := h.inv (demo_wf 0)
  refine ⟨w, ⟨b, ([[1], [2, 3]], []), 0⟩, c, h, ?_, by omega, h2, h1, new_empty (v.live 2 _ h2).1, fc, ?_⟩
  · intro s off
    cases s with
    | nil => simp [pieces]
    | cons c cs => by_cases h : c.length ≤ off.length <;> simp [pieces, h]
  · simp only [SeqWrite.writeCapacity, lb]; simp [posBound, Target.lim, Width.bits, lim64]

-- an infinite ring with 3000 bytes readable and a writer of capacity 8192 that takes two bytes at a time
example (tab : SysTable) : Wf ⟨.w64, true⟩ (demo 0) ∧
    ∃ (w : World) (a : InfiniteRing) (b : BufWriter (List Byte × List WriteEvent)),
    Reach tab ⟨.w64, true⟩ (demo 0) w ∧ twoWriter.Honest ∧ (1 : Nat) ≠ 2 ∧
    w.held 1 = some (.inf a 3000) ∧ w.held 2 = some (.ring b.buf 0) ∧
    a.fillBuf ⟨.w64, true⟩ w.k = .ok (List.replicate 3000 5) ∧ b.buffered ⟨.w64, true⟩ w.k = .ok [] ∧
    0 + 1000 * (5000 * SeqWrite.writeCapacity b.buf) <
      posBound ⟨.w64, true⟩ (SeqWrite.writeCapacity b.buf) ∧ ([] : List Byte).length + (List.replicate 3000 (5 : Byte)).length <
      SeqWrite.writeCapacity b.buf := by
  refine ⟨demo_wf 0, ?_⟩
  obtain ⟨w, a, b, c, d, h, h0, h1, h2, h3, lb, ld, fa, fc, fb, fd, wl⟩ := demo_filled tab
  have v := h.inv (demo_wf 0)
  refine ⟨w, c, ⟨b, ([], []), false⟩, h, ?_, by omega, h1, h2, fc, new_empty (v.live 2 _ h2).1, ?_, ?_⟩
  · intro s data; simp only [twoWriter]; omega
  · simp only [SeqWrite.writeCapacity, lb]; simp [posBound, Target.lim, Width.bits, lim64]
  · simp only [SeqWrite.writeCapacity, lb]; rw [List.length_replicate]; decide

-- the same with 5192 bytes in the writer's buffer: there is room for exactly the 3000 bytes of the ring
example (tab : SysTable) (y : List Byte) (hy : y.length = 5192) : Wf ⟨.w64, true⟩ (demo 0) ∧
    ∃ (w : World) (a : InfiniteRing) (n m : Nat) (b : BufWriter (Unit × List WriteEvent)),
    Reach tab ⟨.w64, true⟩ (demo 0) w ∧ w.held 1 = some (.inf a n) ∧ w.held 2 = some (.ring b.buf m) ∧
    (1 : Nat) ≠ 2 ∧ a.fillBuf ⟨.w64, true⟩ w.k = .ok (List.replicate 3000 5) ∧
    b.buffered ⟨.w64, true⟩ w.k = .ok y ∧ b.inner.2 = [] ∧ List.replicate 3000 (5 : Byte) ≠ [] ∧ y ≠ [] ∧
    b.buf.writeLen ⟨.w64, true⟩ = .ok (List.replicate 3000 (5 : Byte)).length ∧
    (List.replicate 3000 (5 : Byte)).length ≤ 8192 := by
  refine ⟨demo_wf 0, ?_⟩
  obtain ⟨w, a, b, c, d, h, h0, h1, h2, h3, lb, ld, fa, fc, fb, fd, wl⟩ := demo_filled tab
  have wf : Wf ⟨.w64, true⟩ (demo 0) := demo_wf 0
  obtain ⟨s, g, hn, -⟩ := h.holdsInf wf h1
  obtain ⟨sb, gb, hb, fb', wb⟩ := h.holdsRing wf h2
  rw [wl] at wb; injection wb with wb
  rw [fb] at fb'; injection fb' with fb'
  rw [lb] at gb
  obtain ⟨b', w', -, cl, hh, gg⟩ := (ring_sink (tab := tab) wf 2 8192).write h ⟨by rw [h2, hb], gb⟩ y
    (by simp only [hb, ← wb, hy]; decide)
  obtain ⟨hh1, gg1⟩ := keep_calls (tab := tab) (t := ⟨.w64, true⟩) (k0 := demo 0)
    (H := fun w => w.held 1 = some (.inf c s.total) ∧ HoldsInf ⟨.w64, true⟩ w 1 c.len s) (by decide)
    (fun {w} r k => (inf_sink (tab := tab) wf 1 c.len).keep r k) h ⟨by rw [h1, hn], g⟩ cl
  have hsq : s.q = List.replicate 3000 5 := by
    have := g.shows h1
    rw [fc] at this; injection this with this; exact this.symm
  have v := cl.reach h
  obtain ⟨q, sp, vb⟩ := RingAt.view ((v.inv wf).live 2 _ hh).1
  obtain ⟨vb2, -, -⟩ := gg.view wf v hh
  have hm : min y.length sb.spare.length = 5192 := by rw [hy, ← wb]; decide
  refine ⟨w', c, _, _, ⟨b', ((), []), false⟩, v, hh1, hh, by decide, ?_, ?_, rfl, ?_, ?_, ?_, ?_⟩
  · rw [gg1.shows hh1, hsq]
  · show readSliceBytes _ _ _ _ = _
    rw [vb2.readSlice]
    simp only [Win.step, hm, ← fb', List.nil_append]
    rw [List.take_of_length_le (by omega)]
  · intro hc
    have := congrArg List.length hc
    rw [List.length_replicate] at this; cases this
  · intro hc; rw [hc] at hy; cases hy
  · rw [vb2.writeLen]
    simp only [Win.step, List.length_drop, List.length_replicate]
    rw [hm, ← wb]
  · rw [List.length_replicate]; decide

end Vmap
