import Verif.Proofs.BufAdapt
import Verif.Props.RingCopy
/-
Property theorems C175 and C176: buffered readers through `Read::take` and `Read::bytes`, formatted text to buffered
writers.
-/
namespace Vmap
open Kernel Spec
variable {σ τ : Type}

/-- C175: `reader.take(limit).read_to_end(..)` on a `BufReader` (its ring is handle `i`, with `qr` buffered) in a program
in any reachable state, over any honest inner reader and with destinations of any size.  It gives the next bytes
of the stream, never more than `limit`, and what the inner reader handed over beyond them stays in the buffer for
the next call.  Success means that the limit was reached or the stream is at its end; an error or a panic is the inner
reader's, and loses nothing.  With a limit of 0 the inner reader is not called.  Nothing is done but to call functions
of the ring. -/
theorem C175_take {tab : SysTable} {t : Target} {k0 : Kernel} (wf : Wf t k0) {w : World}
    (h : Reach tab t k0 w) (R : Reader σ) (hR : R.Honest) {i n : Nat}
    {r : BufReader (σ × List ReadEvent)} (hi : w.held i = some (.ring r.buf n)) {qr : List Byte}
    (hqr : r.buffer t w.k = .ok qr) (limit steps : Nat) (dst : Nat → List Byte) (hd : ∀ i, dst i ≠ [])
    (below : n + steps * SeqWrite.writeCapacity r.buf < posBound t (SeqWrite.writeCapacity r.buf)) :
    ∃ r' x n' qr' er got w',
      BufReader.takeToEnd R.spy t steps dst w.k r limit [] = .ok (w'.k, r', limit - got.length, got, x) ∧
      OnlyCalls tab t (· = i) w w' ∧ Reach tab t k0 w' ∧ w'.held i = some (.ring r'.buf n') ∧
      r'.buffer t w'.k = .ok qr' ∧ r'.inner.2 = r.inner.2 ++ er ∧ qr ++ taken er = got ++ qr' ∧ got.length ≤ limit ∧
      (limit = 0 → er = []) ∧
      match x with
      | .ok () => got.length = limit ∨ (qr' = [] ∧ SaidEof er)
      | .err e => SaidErr er e
      | .unwound => SaidPanic er
      | .pending => steps ≤ got.length + interrupts er := by
  obtain ⟨r', x, n', qr', er, got, w', e, c, h1, h2, h3, h4, h5, h6, res⟩ :=
    take_to_end wf R hR steps dst hd h hi hqr below limit []
  exact ⟨r', x, n', qr', er, got, w', e, c, c.reach h, h1, h2, h3, h4, h5, h6, res⟩

/-- C175: a successful `take(limit).read_to_end(..)` followed by another: together they are what one with the sum of the
limits would give: the second goes on where the first stopped. -/
theorem C175_take_twice {tab : SysTable} {t : Target} {k0 : Kernel} (wf : Wf t k0) {w : World}
    (h : Reach tab t k0 w) (R : Reader σ) (hR : R.Honest) {i n : Nat}
    {r : BufReader (σ × List ReadEvent)} (hi : w.held i = some (.ring r.buf n)) {qr : List Byte}
    (hqr : r.buffer t w.k = .ok qr) (limit limit' steps steps' : Nat) (dst dst' : Nat → List Byte)
    (hd : ∀ i, dst i ≠ []) (hd' : ∀ i, dst' i ≠ [])
    (below : n + (steps + steps') * SeqWrite.writeCapacity r.buf < posBound t (SeqWrite.writeCapacity r.buf)) :
    ∃ k1 r1 x r2 y er got got' l l' w',
      BufReader.takeToEnd R.spy t steps dst w.k r limit [] = .ok (k1, r1, l, got, x) ∧
      BufReader.takeToEnd R.spy t steps' dst' k1 r1 limit' [] = .ok (w'.k, r2, l', got', y) ∧
      OnlyCalls tab t (· = i) w w' ∧ r2.inner.2 = r.inner.2 ++ er ∧ got.length ≤ limit ∧ got'.length ≤ limit' ∧
      ∃ qr', r2.buffer t w'.k = .ok qr' ∧ qr ++ taken er = got ++ got' ++ qr' ∧
        (x = .ok () → y = .ok () → got.length + got'.length = limit + limit' ∨
          ∃ a b, er = a ++ b ∧ (SaidEof a ∨ SaidEof b)) := by
  simp only [SeqWrite.writeCapacity, Nat.add_mul] at below
  obtain ⟨r1, x, n1, q1, er, got, w1, e1, c1, h1, h2, h3, h4, h5, h6, h7, res⟩ :=
    take_to_end' wf R hR steps dst hd h hi hqr (by omega) limit []
  obtain ⟨r2, y, n2, q2, er2, got2, w2, e2, c2, g1, g2, g3, g4, g5, g6, res2⟩ :=
    take_to_end wf R hR steps' dst' hd' (c1.reach h) h1 h2 (by rw [h7.1]; omega) limit' []
  refine ⟨w1.k, r1, x, r2, y, er ++ er2, got, got2, _, _, w2, e1, e2, c1.trans c2,
    by rw [g3, h3, List.append_assoc], h5, g5, q2, g2, ?_, ?_⟩
  · rw [taken_append, ← List.append_assoc, h4, List.append_assoc, g4, List.append_assoc]
  · intro hx hy
    subst hx hy
    rcases res with a | a
    · rcases res2 with b | b
      · exact .inl (by omega)
      · exact .inr ⟨er, er2, rfl, .inr b.2⟩
    · exact .inr ⟨er, er2, rfl, .inl a.2⟩

/-- C175: `reader.bytes().next()` on a `BufReader`: `Some(Ok(c))` takes the next byte off the stream; `None` means that
the stream is at its end; an error or a panic is the inner reader's, and loses nothing; interrupted reads are retried. -/
theorem C175_bytes {tab : SysTable} {t : Target} {k0 : Kernel} (wf : Wf t k0) {w : World}
    (h : Reach tab t k0 w) (R : Reader σ) (hR : R.Honest) {i n : Nat}
    {r : BufReader (σ × List ReadEvent)} (hi : w.held i = some (.ring r.buf n)) {qr : List Byte}
    (hqr : r.buffer t w.k = .ok qr) (steps : Nat)
    (below : n + steps * SeqWrite.writeCapacity r.buf < posBound t (SeqWrite.writeCapacity r.buf)) :
    ∃ r' x n' qr' er w',
      BufReader.nextByte R.spy t steps w.k r = .ok (w'.k, r', x) ∧
      OnlyCalls tab t (· = i) w w' ∧ Reach tab t k0 w' ∧ w'.held i = some (.ring r'.buf n') ∧
      r'.buffer t w'.k = .ok qr' ∧ r'.inner.2 = r.inner.2 ++ er ∧
      match x with
      | .ok (some c) => qr ++ taken er = c :: qr'
      | .ok none => qr ++ taken er = [] ∧ qr' = [] ∧ SaidEof er
      | .err e => qr ++ taken er = qr' ∧ SaidErr er e
      | .unwound => qr ++ taken er = qr' ∧ SaidPanic er
      | .pending => qr ++ taken er = qr' ∧ interrupts er = steps := by
  obtain ⟨r', x, n', qr', er, w', e, c, h1, h2, h3, res⟩ := next_byte wf R hR steps h hi hqr below
  exact ⟨r', x, n', qr', er, w', e, c, c.reach h, h1, h2, h3, res⟩

/-- C176: `write!(writer, ..)` to a `BufWriter` (its ring is handle `j`, with `qw` buffered) in a program in any
reachable state, over any honest inner writer; `ps` are the pieces of the formatted text.  A front part `acc` of the text
is accepted; what the inner writer received and what is buffered are together exactly `qw` and `acc`.  `Ok(())`: all of
it.  An error or panic is the inner writer's, and some of the text is missing.

Full statement (false, see `C176_order_false`): the order is always kept. -/
theorem C176_write_fmt_partial {tab : SysTable} {t : Target} {k0 : Kernel} (wf : Wf t k0) {w : World}
    (h : Reach tab t k0 w) (W : Writer τ) (hW : W.Honest) {j m : Nat}
    {b : BufWriter (τ × List WriteEvent)} (hj : w.held j = some (.ring b.buf m))
    {qw : List Byte} (hqw : b.buffered t w.k = .ok qw) (ps : List (List Byte)) (fuel rounds : Nat)
    (below : m + ps.length * (rounds * SeqWrite.writeCapacity b.buf) < posBound t (SeqWrite.writeCapacity b.buf)) :
    ∃ b' x m' qw' ew acc left w',
      b.writeFmt W.spy t fuel rounds w.k ps = .ok (w'.k, b', x) ∧
      OnlyCalls tab t (· = j) w w' ∧ Reach tab t k0 w' ∧
      w'.held j = some (.ring b'.buf m') ∧ b'.buffered t w'.k = .ok qw' ∧
      b'.inner.2 = b.inner.2 ++ ew ∧ ps.flatten = acc ++ left ∧ (received ew ++ qw').Perm (qw ++ acc) ∧
      ((qw = [] ∧ ps.length = 1) ∨ qw.length + ps.flatten.length < SeqWrite.writeCapacity b.buf →
        received ew ++ qw' = qw ++ acc) ∧
      match x with
      | .ok () => left = []
      | .err e => left ≠ [] ∧ WriteFailed ew e ∧ e.kind ≠ .interrupted
      | .unwound => left ≠ [] ∧ WritePanicked ew
      | .pending => rounds ≤ acc.length + refused ew ∨ fuel ≤ SeqWrite.writeCapacity b.buf + refused ew := by
  obtain ⟨b', x, m', qw', ew, acc, left, w', e, c, h1, h2, -, h3, h4, h5, h6, res⟩ :=
    write_fmt wf W hW fuel rounds ps h hj hqw below
  exact ⟨b', x, m', qw', ew, acc, left, w', e, c, c.reach h, h1, h2, h3, h4, h5, fun hc => h6 (.inr hc), res⟩

/-- C176: a `write!` that succeeds followed by a `flush` that succeeds delivers to the inner writer exactly the bytes that
were in the writer's buffer and the text, each once; in order under the condition of `C176_write_fmt_partial`.

Full statement (false, see `C176_order_false`): the order is always kept. -/
theorem C176_delivered_partial {tab : SysTable} {t : Target} {k0 : Kernel} (wf : Wf t k0) {w : World}
    (h : Reach tab t k0 w) (W : Writer τ) (hW : W.Honest) {j m : Nat}
    {b b' b'' : BufWriter (τ × List WriteEvent)} (hj : w.held j = some (.ring b.buf m))
    {qw : List Byte} (hqw : b.buffered t w.k = .ok qw) (ps : List (List Byte)) (fuel rounds : Nat)
    (below : m + ps.length * (rounds * SeqWrite.writeCapacity b.buf) < posBound t (SeqWrite.writeCapacity b.buf))
    {k' : Kernel} {fuel' : Nat} (wrote : b.writeFmt W.spy t fuel rounds w.k ps = .ok (k', b', .ok ()))
    (flushed : b'.flush W.spy t fuel' k' = .ok (b'', .ok ())) :
    ∃ ew, b''.inner.2 = b.inner.2 ++ ew ∧ b''.buffered t k' = .ok [] ∧ (received ew).Perm (qw ++ ps.flatten) ∧
      ((qw = [] ∧ ps.length = 1) ∨ qw.length + ps.flatten.length < SeqWrite.writeCapacity b.buf →
        received ew = qw ++ ps.flatten) := by
  obtain ⟨b1, x, m', qw', ew, acc, left, w', e, -, rc, h2, h4, h5, h6, h7, h8, res⟩ :=
    C176_write_fmt_partial wf h W hW hj hqw ps fuel rounds below
  rw [wrote] at e
  injection e with e; injection e with e1 e; injection e with e2 e
  subst e1 e2 e
  have hl : left = [] := res
  subst hl
  rw [List.append_nil] at h6
  obtain ⟨q1, sp, v⟩ := RingAt.view ((rc.inv wf).live j _ h2).1
  rw [BufWriter.buffered, v.readSlice] at h4
  injection h4 with h4
  subst h4
  obtain ⟨b2, y, ev, q2, sp2, e2, v2, -, -, lg, hx⟩ := bw_flush_view W v fuel'
  rw [flushed] at e2
  injection e2 with e2; injection e2 with e2 e3
  subst e2 e3
  rcases hx with ⟨hx, -⟩ | ⟨ev1, r, g1, g2, g3, -⟩
  · exact absurd rfl hx
  subst g3
  have hs := g2.split
  rw [List.append_nil] at hs
  have hrec : received (ew ++ ev) = received ew ++ q1 := by
    rw [g1, hs, received_append, received_append, received_one]
    simp [WriteEvent.bytes]
  exact ⟨ew ++ ev, by rw [lg, h5, List.append_assoc], v2.readSlice, by rw [hrec, h6]; exact h7,
    fun hcond => by rw [hrec, h6]; exact h8 hcond⟩

/-- C176, why the order is not always kept: `write!(writer, "{}{}", a, c)` on a fresh `BufWriter` whose capacity is just
the length of the text delivers `c` before `a`, whatever `a` and `c` are. -/
theorem C176_order_false {tab : SysTable} {t : Target} {k0 : Kernel} (wf : Wf t k0) {w : World}
    (h : Reach tab t k0 w) {j m : Nat} {b : BufWriter (Unit × List WriteEvent)}
    (hj : w.held j = some (.ring b.buf m)) (hqw : b.buffered t w.k = .ok []) (log : b.inner.2 = [])
    {a c : List Byte} (ha : a ≠ []) (hc : c ≠ []) (fit : a.length + c.length = SeqWrite.writeCapacity b.buf)
    (below : m + a.length < posBound t (SeqWrite.writeCapacity b.buf)) (fuel rounds fuel' : Nat) :
    ∃ k' b' b'', b.writeFmt takesAll.spy t fuel (rounds + 2) w.k [a, c] = .ok (k', b', .ok ()) ∧
      b'.flush takesAll.spy t (fuel' + 2) k' = .ok (b'', .ok ()) ∧ received b''.inner.2 = c ++ a := by
  obtain ⟨q1, sp, v⟩ := RingAt.view ((h.inv wf).live j _ hj).1
  rw [BufWriter.buffered, v.readSlice] at hqw
  injection hqw with hqw
  subst hqw
  have hl := v.len
  have hcp := List.length_pos_iff.mpr hc
  rw [List.length_nil] at hl
  simp only [SeqWrite.writeCapacity] at fit below
  obtain ⟨k1, b1, e1, v1, l1, i1⟩ := writeAll_buffers (W := takesAll) (fuel := fuel) (rounds := rounds) v ha
    (by omega) below
  rw [List.nil_append] at v1
  have hw := writeAll_exact (k := k1) (fuel := fuel) (rounds := rounds) v1 hc (by rw [List.length_drop]; omega)
  obtain ⟨b2, ef, hf⟩ := flush_takesAll
    (b := { b1 with inner := ((), b1.inner.2 ++ [.write c (.ok c.length)]), panicked := false }) v1 ha fuel'
  refine ⟨k1, _, b2, ?_, ef, ?_⟩
  · simp only [BufWriter.writeFmt, e1, hw, bind, Except.bind]
    rfl
  · rw [hf, i1, log]
    simp [received, WriteEvent.bytes]

/-! ### Examples -/

-- a reader of capacity 8192 over a reader that hands out pieces, with a limit of 2 bytes
example (tab : SysTable) : Wf ⟨.w64, true⟩ (demo 0) ∧
    ∃ (w : World) (r : BufReader (List (List Byte) × List ReadEvent)),
    Reach tab ⟨.w64, true⟩ (demo 0) w ∧ pieces.Honest ∧ w.held 2 = some (.ring r.buf 0) ∧
    r.buffer ⟨.w64, true⟩ w.k = .ok [] ∧ r.inner.1 = [[1], [2, 3]] ∧
    0 + (1000 + 1000) * SeqWrite.writeCapacity r.buf < posBound ⟨.w64, true⟩ (SeqWrite.writeCapacity r.buf) := by
  refine ⟨demo_wf 0, ?_⟩
  obtain ⟨w, a, b, c, d, h, h0, h1, h2, h3, lb, ld, fa, fc, fb, fd, wl⟩ := demo_filled tab
  have v := h.inv (demo_wf 0)
  refine ⟨w, ⟨b, ([[1], [2, 3]], []), 0⟩, h, ?_, h2, new_empty (v.live 2 _ h2).1, rfl, ?_⟩
  · intro s off
    cases s with
    | nil => simp [pieces]
    | cons c cs => by_cases h : c.length ≤ off.length <;> simp [pieces, h]
  · simp only [SeqWrite.writeCapacity, lb]; simp [posBound, Target.lim, Width.bits, lim64]

-- a writer of capacity 8192 that takes two bytes at a time, and a text in three pieces
example (tab : SysTable) : Wf ⟨.w64, true⟩ (demo 0) ∧
    ∃ (w : World) (b : BufWriter (List Byte × List WriteEvent)),
    Reach tab ⟨.w64, true⟩ (demo 0) w ∧ twoWriter.Honest ∧ w.held 2 = some (.ring b.buf 0) ∧
    b.buffered ⟨.w64, true⟩ w.k = .ok [] ∧
    0 + ([[1, 2], [3], [4, 5]] : List (List Byte)).length * (5000 * SeqWrite.writeCapacity b.buf) <
      posBound ⟨.w64, true⟩ (SeqWrite.writeCapacity b.buf) ∧
    ([] : List Byte).length + ([[1, 2], [3], [4, 5]] : List (List Byte)).flatten.length < SeqWrite.writeCapacity b.buf := by
  refine ⟨demo_wf 0, ?_⟩
  obtain ⟨w, a, b, c, d, h, h0, h1, h2, h3, lb, ld, fa, fc, fb, fd, wl⟩ := demo_filled tab
  have v := h.inv (demo_wf 0)
  refine ⟨w, ⟨b, ([], []), false⟩, h, ?_, h2, new_empty (v.live 2 _ h2).1, ?_, ?_⟩
  · intro s data; simp only [twoWriter]; omega
  · simp only [SeqWrite.writeCapacity, lb]; simp [posBound, Target.lim, Width.bits, lim64]
  · simp only [SeqWrite.writeCapacity, lb]; decide

-- a fresh writer of capacity 8192 and a text of 8192 bytes in two pieces
example (tab : SysTable) : Wf ⟨.w64, true⟩ (demo 0) ∧
    ∃ (w : World) (b : BufWriter (Unit × List WriteEvent)),
    Reach tab ⟨.w64, true⟩ (demo 0) w ∧ w.held 2 = some (.ring b.buf 0) ∧
    b.buffered ⟨.w64, true⟩ w.k = .ok [] ∧ b.inner.2 = [] ∧ [1, 2, 3] ≠ ([] : List Byte) ∧
    List.replicate 8189 (5 : Byte) ≠ [] ∧
    [1, 2, 3].length + (List.replicate 8189 (5 : Byte)).length = SeqWrite.writeCapacity b.buf ∧
    0 + [1, 2, 3].length < posBound ⟨.w64, true⟩ (SeqWrite.writeCapacity b.buf) := by
  refine ⟨demo_wf 0, ?_⟩
  obtain ⟨w, a, b, c, d, h, h0, h1, h2, h3, lb, ld, fa, fc, fb, fd, wl⟩ := demo_filled tab
  have v := h.inv (demo_wf 0)
  refine ⟨w, ⟨b, ((), []), false⟩, h, h2, new_empty (v.live 2 _ h2).1, rfl, by decide, ?_, ?_, ?_⟩
  · intro hc
    have := congrArg List.length hc
    rw [List.length_replicate] at this; cases this
  · simp only [SeqWrite.writeCapacity, lb]; rw [List.length_replicate]; rfl
  · simp only [SeqWrite.writeCapacity, lb]; simp [posBound, Target.lim, Width.bits, lim64]

end Vmap
