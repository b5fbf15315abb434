import Verif.Proofs.BufCopy
import Verif.Props.RingCopy
/-
Property theorems C171 and C172: `std::io::copy` from a `BufReader` to a `Ring` and from a `Ring` to a `BufWriter`.
-/
namespace Vmap
open Kernel Spec
variable {σ τ : Type}

/-- C171: a program in any reachable state copies from a `BufReader` (its ring is handle `i`, with `qr` buffered) to a
`Ring` (handle `j`, with `qb` readable and room for `room` bytes), over any honest inner reader and with a copy buffer
of any size.  `moved` is what the ring took and `lost` what was read but did not fit.  Whatever happens: the bytes
read are `moved`, then `lost`, then what is still in the reader's buffer; the ring has `moved` appended, no more than
its room; no other map or ring has changed.  `Ok(n)`: everything up to end of file was moved, and `n` is its length.
An error is that of the inner reader (then nothing is lost), or `WriteZero`: then the ring is full and something is
lost.  A panic is that of the inner reader, and nothing is lost. -/
theorem C171_reader_to_ring {tab : SysTable} {t : Target} {k0 : Kernel} (wf : Wf t k0) {w : World}
    (h : Reach tab t k0 w) (R : Reader σ) (hR : R.Honest) {i j n m : Nat} (hij : i ≠ j)
    {r : BufReader (σ × List ReadEvent)} {b : Ring} (hi : w.held i = some (.ring r.buf n))
    (hj : w.held j = some (.ring b m)) {qr qb : List Byte} (hqr : r.buffer t w.k = .ok qr)
    (hqb : b.fillBuf t w.k = .ok qb) {room : Nat} (hr : b.writeLen t = .ok room) (steps : Nat)
    (dst : Nat → List Byte) (hd : ∀ i, dst i ≠ [])
    (belowr : n + steps * SeqWrite.writeCapacity r.buf < posBound t (SeqWrite.writeCapacity r.buf))
    (belowb : m + steps * (2 * SeqWrite.writeCapacity b) < posBound t (SeqWrite.writeCapacity b)) :
    ∃ r' b' x n' m' qr' er moved lost w',
      BufReader.copyToRing R.spy t steps dst w.k r b 0 = .ok (w'.k, r', b', x) ∧
      Reach tab t k0 w' ∧ w'.held i = some (.ring r'.buf n') ∧ w'.held j = some (.ring b' m') ∧ Besides i j w w' ∧
      r'.buffer t w'.k = .ok qr' ∧ b'.fillBuf t w'.k = .ok (qb ++ moved) ∧ r'.inner.2 = r.inner.2 ++ er ∧
      qr ++ taken er = moved ++ lost ++ qr' ∧ moved.length ≤ room ∧
      match x with
      | .ok c => c = moved.length ∧ lost = [] ∧ qr' = [] ∧ SaidEof er
      | .err e => (lost = [] ∧ SaidErr er e) ∨ (lost ≠ [] ∧ moved.length = room ∧ e = .ofKind .writeZero)
      | .unwound => lost = [] ∧ SaidPanic er
      | .pending => lost = [] ∧ steps ≤ moved.length + interrupts er := by
  obtain ⟨q1, sp, v⟩ := RingAt.view ((h.inv wf).live j _ hj).1
  rw [v.fillBuf] at hqb
  injection hqb with hqb
  subst hqb
  obtain ⟨r', b', x, n', m', qr', er, moved, lost, w', e, rc, h1, h2, bs, h3, h4, h5, h6, h7, res⟩ :=
    reader_to_ring wf R hR hij steps dst hd h hi hj hqr v.readSlice hr belowr belowb 0
  obtain ⟨q2, sp2, v2⟩ := RingAt.view ((rc.inv wf).live j _ h2).1
  rw [v2.readSlice] at h4
  refine ⟨r', b', x, n', m', qr', er, moved, lost, w', e, rc, h1, h2, bs, h3, by rw [v2.fillBuf, h4], h5, h6, h7, ?_⟩
  cases x with
  | ok c => simpa only [Nat.zero_add] using res
  | err e => exact res
  | unwound => exact res
  | pending => exact res

/-- C172: a program in any reachable state copies from a `Ring` (handle `i`, with `qa` readable) to a `BufWriter`
(its ring is handle `j`, with `qw` buffered), over any honest inner writer and with a copy buffer of any size.  `moved`
is what the writer accepted and `lost` what was read but refused by a failing inner writer.  Whatever happens: the
bytes that were in the ring are `moved`, then `lost`, then what is still in it; the bytes received by the inner writer
and those in the writer's buffer are those it held and `moved`, none lost or doubled; no other map or ring has
changed.  `Ok(n)`: the ring is empty and `n` is the number of bytes that were in it.  An error or panic is that of the
inner writer.  The order is kept if everything together is shorter than the writer's capacity, or if the
writer's buffer is empty and the bytes of the ring fit into the copy buffer.

Full statement (false, see `C172_order_false`): the order is always kept. -/
theorem C172_ring_to_writer_partial {tab : SysTable} {t : Target} {k0 : Kernel} (wf : Wf t k0) {w : World}
    (h : Reach tab t k0 w) (W : Writer τ) (hW : W.Honest) {i j n m : Nat} (hij : i ≠ j) {a : Ring}
    {b : BufWriter (τ × List WriteEvent)} (hi : w.held i = some (.ring a n)) (hj : w.held j = some (.ring b.buf m))
    {qa qw : List Byte} (hqa : a.fillBuf t w.k = .ok qa) (hqw : b.buffered t w.k = .ok qw)
    (fuel rounds steps : Nat) {size : Nat} (pos : 0 < size)
    (below : m + steps * (rounds * SeqWrite.writeCapacity b.buf) < posBound t (SeqWrite.writeCapacity b.buf)) :
    ∃ a' b' x n' m' qa' qw' ew moved lost w',
      Ring.copyToWriter W.spy t fuel rounds size steps w.k a b 0 = .ok (w'.k, a', b', x) ∧
      Reach tab t k0 w' ∧ w'.held i = some (.ring a' n') ∧ w'.held j = some (.ring b'.buf m') ∧ Besides i j w w' ∧
      a'.fillBuf t w'.k = .ok qa' ∧ b'.buffered t w'.k = .ok qw' ∧ b'.inner.2 = b.inner.2 ++ ew ∧
      qa = moved ++ lost ++ qa' ∧ (received ew ++ qw').Perm (qw ++ moved) ∧
      ((qw = [] ∧ qa.length ≤ size) ∨ qw.length + qa.length < SeqWrite.writeCapacity b.buf →
        received ew ++ qw' = qw ++ moved) ∧
      match x with
      | .ok c => c = qa.length ∧ moved = qa ∧ lost = [] ∧ qa' = []
      | .err e => lost ≠ [] ∧ WriteFailed ew e ∧ e.kind ≠ .interrupted
      | .unwound => lost ≠ [] ∧ WritePanicked ew
      | .pending => steps ≤ moved.length ∨ rounds ≤ moved.length + refused ew ∨
          fuel ≤ SeqWrite.writeCapacity b.buf + refused ew := by
  obtain ⟨q1, sp, v⟩ := RingAt.view ((h.inv wf).live i _ hi).1
  rw [v.fillBuf] at hqa
  injection hqa with hqa
  subst hqa
  obtain ⟨a', b', x, n', m', qa', qw', ew, moved, lost, w', e, rc, h1, h2, bs, h3, h4, -, h5, h6, h7, h8, res⟩ :=
    ring_to_writer wf W hW fuel rounds pos hij steps h hi hj v.readSlice hqw below 0
  obtain ⟨q2, sp2, v2⟩ := RingAt.view ((rc.inv wf).live i _ h1).1
  rw [v2.readSlice] at h3
  refine ⟨a', b', x, n', m', qa', qw', ew, moved, lost, w', e, rc, h1, h2, bs, by rw [v2.fillBuf, h3], h4, h5, h6, h7,
    fun hc => h8 (.inr hc), ?_⟩
  cases x with
  | ok c =>
    obtain ⟨g1, g2, g3⟩ := res
    subst g2 g3
    rw [List.append_nil, List.append_nil] at h6
    exact ⟨by rw [g1, h6, Nat.zero_add], h6.symm, rfl, rfl⟩
  | err e => exact res
  | unwound => exact res
  | pending => exact res

/-- C172: a copy that succeeds followed by a `flush` that succeeds delivers to the inner writer exactly the bytes that
were in the writer's buffer and in the ring, each once; in order under the condition of `C172_ring_to_writer_partial`.

Full statement (false, see `C172_order_false`): the order is always kept. -/
theorem C172_delivered_partial {tab : SysTable} {t : Target} {k0 : Kernel} (wf : Wf t k0) {w : World}
    (h : Reach tab t k0 w) (W : Writer τ) (hW : W.Honest) {i j n m : Nat} (hij : i ≠ j) {a a' : Ring}
    {b b' b'' : BufWriter (τ × List WriteEvent)} (hi : w.held i = some (.ring a n))
    (hj : w.held j = some (.ring b.buf m)) {qa qw : List Byte} (hqa : a.fillBuf t w.k = .ok qa)
    (hqw : b.buffered t w.k = .ok qw) (fuel rounds steps : Nat) {size : Nat} (pos : 0 < size)
    (below : m + steps * (rounds * SeqWrite.writeCapacity b.buf) < posBound t (SeqWrite.writeCapacity b.buf))
    {k' : Kernel} {c fuel' : Nat}
    (copied : Ring.copyToWriter W.spy t fuel rounds size steps w.k a b 0 = .ok (k', a', b', .ok c))
    (flushed : b'.flush W.spy t fuel' k' = .ok (b'', .ok ())) :
    ∃ ew, b''.inner.2 = b.inner.2 ++ ew ∧ c = qa.length ∧ a'.fillBuf t k' = .ok [] ∧ b''.buffered t k' = .ok [] ∧
      (received ew).Perm (qw ++ qa) ∧
      ((qw = [] ∧ qa.length ≤ size) ∨ qw.length + qa.length < SeqWrite.writeCapacity b.buf →
        received ew = qw ++ qa) := by
  obtain ⟨a1, b1, x, n', m', qa', qw', ew, moved, lost, w', e, rc, h1, h2, bs, h3, h4, h5, h6, h7, h8, res⟩ :=
    C172_ring_to_writer_partial wf h W hW hij hi hj hqa hqw fuel rounds steps pos below
  rw [copied] at e
  injection e with e; injection e with e1 e; injection e with e2 e; injection e with e3 e
  subst e1 e2 e3 e
  obtain ⟨hc, hm, hl, hq⟩ := res
  subst hm hl hq
  obtain ⟨q1, sp, v⟩ := RingAt.view ((rc.inv wf).live j _ h2).1
  rw [BufWriter.buffered, v.readSlice] at h4
  injection h4 with h4
  subst h4
  obtain ⟨b2, y, ev, q2, sp2, e2, v2, -, -, lg, hx⟩ := bw_flush_view W v fuel'
  rw [flushed] at e2
  injection e2 with e2; injection e2 with e2 e3
  subst e2 e3
  rcases hx with ⟨hx, -⟩ | ⟨ev1, r, g1, g2, g3, -⟩
  · exact absurd rfl hx
  subst g3
  have hs := g2.split
  rw [List.append_nil] at hs
  have hrec : received (ew ++ ev) = received ew ++ q1 := by
    rw [g1, hs, received_append, received_append, received_one]
    simp [WriteEvent.bytes]
  exact ⟨ew ++ ev, by rw [lg, h5, List.append_assoc], hc, h3, v2.readSlice, by rw [hrec]; exact h7,
    fun hcond => by rw [hrec]; exact h8 hcond⟩

/-- C172, why the order is not always kept: the writer's buffer holds `qw`, not empty, and the ring exactly as many
bytes as there is room for in it; the inner writer takes everything.  The copy and the `flush` succeed, but the
inner writer receives the bytes of the ring before those that were written earlier. -/
theorem C172_order_false {t : Target} {k : Kernel} {n m : Nat} {a : Ring} {b : BufWriter (Unit × List WriteEvent)}
    (ha : RingAt t k a n) (hb : RingAt t k b.buf m) {qa qw : List Byte} (hqa : a.fillBuf t k = .ok qa)
    (hqw : b.buffered t k = .ok qw) (log : b.inner.2 = []) (some_ : qa ≠ []) (held : qw ≠ [])
    (fit : b.buf.writeLen t = .ok qa.length) {size : Nat} (one : qa.length ≤ size) (fuel rounds steps fuel' : Nat) :
    ∃ a' b' b'', Ring.copyToWriter takesAll.spy t fuel (rounds + 2) size (steps + 2) k a b 0 =
        .ok (k, a', b', .ok qa.length) ∧
      b'.flush takesAll.spy t (fuel' + 2) k = .ok (b'', .ok ()) ∧ received b''.inner.2 = qa ++ qw := by
  obtain ⟨q1, sp, v⟩ := hb.view
  rw [BufWriter.buffered, v.readSlice] at hqw
  injection hqw with hqw
  subst hqw
  obtain ⟨q2, sp2, va⟩ := ha.view
  rw [va.fillBuf] at hqa
  injection hqa with hqa
  subst hqa
  rw [v.writeLen] at fit
  injection fit with fit
  have hpos := List.length_pos_iff.mpr some_
  obtain ⟨a1, sp1, e1, v1, l1⟩ := va.readTake size
  rw [List.take_of_length_le one] at e1
  rw [List.drop_eq_nil_of_le one] at v1
  obtain ⟨a2, sp3, e2, v2, l2⟩ := v1.readTake size
  rw [List.take_nil] at e2
  have hw := writeAll_exact (k := k) (fuel := fuel) (rounds := rounds) v some_ fit.symm
  obtain ⟨b2, ef, hf⟩ := flush_takesAll
    (b := { b with inner := ((), b.inner.2 ++ [.write q2 (.ok q2.length)]), panicked := false }) v held fuel'
  refine ⟨a2, _, b2, ?_, ef, ?_⟩
  · rw [Ring.copyToWriter, e1]
    simp only [bind, Except.bind]
    rw [if_neg (by omega), if_neg (by omega), hw]
    simp only
    rw [Ring.copyToWriter, e2]
    simp [bind, Except.bind, pure, Except.pure]
  · rw [hf, log]
    simp [received, WriteEvent.bytes]

/-! ### Examples -/

-- a program with a reader of capacity 8192 and a ring of capacity 16384; the reader hands out pieces
example (tab : SysTable) : Wf ⟨.w64, true⟩ (demo 0) ∧
    ∃ (w : World) (r : BufReader (List (List Byte) × List ReadEvent)) (b : Ring),
    Reach tab ⟨.w64, true⟩ (demo 0) w ∧ pieces.Honest ∧ (0 : Nat) ≠ 1 ∧
    w.held 0 = some (.ring r.buf 0) ∧ w.held 1 = some (.ring b 0) ∧
    r.buffer ⟨.w64, true⟩ w.k = .ok [] ∧ b.fillBuf ⟨.w64, true⟩ w.k = .ok [] ∧
    b.writeLen ⟨.w64, true⟩ = .ok 16384 ∧
    0 + 1000 * SeqWrite.writeCapacity r.buf < posBound ⟨.w64, true⟩ (SeqWrite.writeCapacity r.buf) ∧
    0 + 1000 * (2 * SeqWrite.writeCapacity b) < posBound ⟨.w64, true⟩ (SeqWrite.writeCapacity b) := by
  refine ⟨demo_wf 0, ?_⟩
  obtain ⟨w, r, s, h, h0, h1, hr, hs⟩ := demo_copy tab
  have v := h.inv (demo_wf 0)
  have ne := new_empty (v.live 1 _ h1).1
  obtain ⟨q, sp, vs⟩ := RingAt.view (v.live 1 _ h1).1
  rw [vs.readSlice] at ne
  injection ne with ne
  subst ne
  have hl := vs.len
  simp only [SeqWrite.writeCapacity] at hs
  refine ⟨w, ⟨r, ([[1], [2, 3]], []), 0⟩, s, h, ?_, by omega, h0, h1,
    new_empty (v.live 0 _ h0).1, vs.fillBuf, ?_, ?_, ?_⟩
  · intro s off
    cases s with
    | nil => simp [pieces]
    | cons c cs => by_cases h : c.length ≤ off.length <;> simp [pieces, h]
  · rw [vs.writeLen, ← hs]; simp only [List.length_nil] at hl; congr 1; omega
  · simp only [hr]; simp [posBound, Target.lim, Width.bits, lim64]
  · simp only [SeqWrite.writeCapacity, hs]; simp [posBound, Target.lim, Width.bits, lim64]

-- 10000 bytes in a ring, copied to a writer of capacity 8192 that takes two bytes at a time
example (tab : SysTable) : Wf ⟨.w64, true⟩ (demo 0) ∧
    ∃ (w : World) (a : Ring) (b : BufWriter (List Byte × List WriteEvent)),
    Reach tab ⟨.w64, true⟩ (demo 0) w ∧ twoWriter.Honest ∧ (0 : Nat) ≠ 2 ∧
    w.held 0 = some (.ring a 10000) ∧ w.held 2 = some (.ring b.buf 0) ∧
    a.fillBuf ⟨.w64, true⟩ w.k = .ok (List.replicate 10000 7) ∧ b.buffered ⟨.w64, true⟩ w.k = .ok [] ∧
    0 + 1000 * (5000 * SeqWrite.writeCapacity b.buf) <
      posBound ⟨.w64, true⟩ (SeqWrite.writeCapacity b.buf) := by
  refine ⟨demo_wf 0, ?_⟩
  obtain ⟨w, a, b, c, d, h, h0, h1, h2, h3, lb, ld, fa, fc, fb, fd, wl⟩ := demo_filled tab
  have v := h.inv (demo_wf 0)
  refine ⟨w, a, ⟨b, ([], []), false⟩, h, ?_, by omega, h0, h2, fa, new_empty (v.live 2 _ h2).1, ?_⟩
  · intro s data; simp only [twoWriter]; omega
  · simp only [SeqWrite.writeCapacity, lb]; simp [posBound, Target.lim, Width.bits, lim64]

-- a ring with 8192 bytes and a writer of capacity 16384 with 8192 bytes buffered
example (tab : SysTable) (x y : List Byte) (hx : x.length = 8192) (hy : y.length = 8192) :
    Wf ⟨.w64, true⟩ (demo 0) ∧ ∃ (w : World) (a : Ring) (n m : Nat) (b : BufWriter (Unit × List WriteEvent)),
    Reach tab ⟨.w64, true⟩ (demo 0) w ∧ w.held 0 = some (.ring a n) ∧ w.held 1 = some (.ring b.buf m) ∧
    RingAt ⟨.w64, true⟩ w.k a n ∧ RingAt ⟨.w64, true⟩ w.k b.buf m ∧ b.inner.2 = [] ∧
    a.fillBuf ⟨.w64, true⟩ w.k = .ok x ∧ b.buffered ⟨.w64, true⟩ w.k = .ok y ∧ x ≠ [] ∧ y ≠ [] ∧
    b.buf.writeLen ⟨.w64, true⟩ = .ok x.length ∧ x.length ≤ 8192 := by
  refine ⟨demo_wf 0, ?_⟩
  obtain ⟨w, r, s, h, h0, h1, hr, hs⟩ := demo_copy tab
  have wf : Wf ⟨.w64, true⟩ (demo 0) := demo_wf 0
  simp only [SeqWrite.writeCapacity] at hr hs
  have room : ∀ {i : Nat} {r : Ring}, w.held i = some (.ring r 0) →
      readSliceBytes ⟨.w64, true⟩ w.k r (Target.usizeMax ⟨.w64, true⟩) = .ok [] ∧
      r.writeLen ⟨.w64, true⟩ = .ok r.len := by
    intro i r hi
    have ne := new_empty ((h.inv wf).live i _ hi).1
    obtain ⟨q, sp, v⟩ := RingAt.view ((h.inv wf).live i _ hi).1
    have ne' := ne
    rw [v.readSlice] at ne'
    injection ne' with ne'
    subst ne'
    have hl := v.len
    simp only [List.length_nil] at hl
    exact ⟨ne, by rw [v.writeLen]; congr 1; omega⟩
  obtain ⟨qr, lr⟩ := room h0
  obtain ⟨qs, ls⟩ := room h1
  obtain ⟨k1, a, n, -, rc1, -, -, on1, q1, -⟩ := ring_all_in wf h h0 qr lr
    (by rw [hr]; simp [posBound, Target.lim, Width.bits, lim64]) x
  have g1 : (w.upd k1 0 (some (.ring a n))).held 1 = some (.ring s 0) := by rw [upd_ne w (by decide)]; exact h1
  obtain ⟨k2, b, m, -, rc2, -, -, on2, q2, l2⟩ := ring_all_in wf rc1 g1
    ((on1.ring wf h (by decide) h1).trans qs) ls (by rw [hs]; simp [posBound, Target.lim, Width.bits, lim64]) y
  have g0 : ((w.upd k1 0 (some (.ring a n))).upd k2 1 (some (.ring b m))).held 0 = some (.ring a n) := by
    rw [upd_ne _ (by decide)]; exact upd_eq w
  have q1' := (on2.ring wf rc1 (by decide) (upd_eq w)).trans q1
  have v := rc2.inv wf
  obtain ⟨q3, sp3, va⟩ := RingAt.view (v.live 0 _ g0).1
  have q1'' : readSliceBytes ⟨.w64, true⟩ k2 a (Target.usizeMax ⟨.w64, true⟩) = .ok q3 := va.readSlice
  rw [q1'] at q1''
  injection q1'' with q1''
  rw [List.nil_append, List.take_of_length_le (by omega)] at q1'' q2
  refine ⟨_, a, n, m, ⟨b, ((), []), false⟩, rc2, g0, upd_eq _, (v.live 0 _ g0).1, (v.live 1 _ (upd_eq _)).1, rfl, ?_,
    q2, ?_, ?_, ?_, by omega⟩
  · rw [va.fillBuf, q1'']
  · intro hc; rw [hc] at hx; cases hx
  · intro hc; rw [hc] at hy; cases hy
  · rw [l2]; congr 1; omega

end Vmap
