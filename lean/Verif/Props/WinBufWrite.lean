import Verif.Proofs.WinBufWrite
import Verif.Props.WinBufCopy
/-
C185: `std::io::copy` from a `Ring` to a `BufWriter` in whole programs on Windows.
-/
namespace Vmap
open Spec Kernel

section
variable {τ : Type} {tab : SysTable} {t : Target} {s0 : Vmap.Win}

/-- C185: a program on Windows makes a `Ring` and a `BufWriter` over any honest inner writer, at any two times, uses
them, and does anything else; then it calls `io::copy` from the ring to the writer, with a copy buffer of any size.
`qw` is what the writer had buffered, `moved` what it accepted and `lost` what was read but refused by a failing inner
writer.  In every memory the process can have: the bytes that were in the ring are `moved`, then `lost`, then what is
still in it; the bytes received by the inner writer and those in the writer's buffer are those it held and `moved`, none
lost or doubled.  `Ok(n)`: the ring is empty and `n` is the number of bytes that were in it.  An error or panic is that
of the inner writer.  The order is kept if everything together is shorter than the writer's capacity, or if the
writer's buffer is empty and the bytes of the ring fit into the copy buffer.  Both can be used on, in the memory the copy
leaves, as before, and every other ring of the program holds what it held.

Full statement (false, see `C185_order_false`): the order is always kept. -/
theorem C185_ring_to_writer_partial (wf : WinWf t s0) (laid : WinLaid t s0) {wa wb w : WinWorld}
    (ra : WinReach tab t s0 wa) (rb : WinReach tab t s0 wb) (W : Writer τ) (hW : W.Honest) (inner : τ) {ha hb : Nat}
    (saneA : 2 * (ha + wa.s.gran) < t.lim) (saneB : 2 * (hb + wb.s.gran) < t.lim) {s1 s2 : Vmap.Win} {a0 : Ring}
    {b0 b : BufWriter (τ × List WriteEvent)} (madeA : wa.s.ringNew t ha = .ok (s1, .ok a0))
    (madeB : BufWriter.winNew t wb.s (inner, []) hb = .ok (s2, .ok b0)) (hij : wa.next ≠ wb.next) {sa : Spec.Win}
    {acc : List Byte} {c fuel : Nat} {fits : Prop}
    (ta : WinQueue tab t wa.next (SeqWrite.writeCapacity a0) (wa.put s1 (.ring a0)) w sa)
    (tb : WinWrites W.spy fuel tab t wb.next (wb.put s2 (.ring b0.buf)) b0 w b acc c fits)
    (rounds steps : Nat) {size : Nat} (pos : 0 < size)
    (below : (c + steps * rounds) * SeqWrite.writeCapacity b0.buf < posBound t (SeqWrite.writeCapacity b0.buf)) :
    (∃ k obj, Wf t k ∧ WinShows w.s k obj) ∧
    ∃ a qw, w.held wa.next = some (.ring a) ∧ w.held wb.next = some (.ring b.buf) ∧
      (received b.inner.2 ++ qw).Perm acc ∧ ∀ k obj, Wf t k → WinShows w.s k obj →
      a.fillBuf t k = .ok sa.q ∧ b.buffered t k = .ok qw ∧
      ∃ k' a' b' x w' sa' qw' acc' c' fits' ew moved lost,
        Ring.copyToWriter W.spy t fuel rounds size steps k a b 0 = .ok (k', a', b', x) ∧
        WinQueue tab t wa.next (SeqWrite.writeCapacity a0) (wa.put s1 (.ring a0)) w' sa' ∧
        WinWrites W.spy fuel tab t wb.next (wb.put s2 (.ring b0.buf)) b0 w' b' acc' c' fits' ∧ c' ≤ c + steps * rounds ∧
        w'.held wa.next = some (.ring a') ∧ w'.held wb.next = some (.ring b'.buf) ∧ Wf t k' ∧ WinShows w'.s k' obj ∧
        (∀ l cap w0 s, wa.next ≠ l → wb.next ≠ l → WinQueue tab t l cap w0 w s → WinQueue tab t l cap w0 w' s) ∧
        a'.fillBuf t k' = .ok sa'.q ∧ b'.buffered t k' = .ok qw' ∧ b'.inner.2 = b.inner.2 ++ ew ∧
        sa.q = moved ++ lost ++ sa'.q ∧ (received ew ++ qw').Perm (qw ++ moved) ∧
        ((qw = [] ∧ sa.q.length ≤ size) ∨ qw.length + sa.q.length < SeqWrite.writeCapacity b0.buf →
          received ew ++ qw' = qw ++ moved) ∧
        match x with
        | .ok n => n = sa.q.length ∧ moved = sa.q ∧ lost = [] ∧ sa'.q = []
        | .err e => lost ≠ [] ∧ WriteFailed ew e ∧ e.kind ≠ .interrupted
        | .unwound => lost ≠ [] ∧ WritePanicked ew
        | .pending => steps ≤ moved.length ∨ rounds ≤ moved.length + refused ew ∨
            fuel ≤ SeqWrite.writeCapacity b0.buf + refused ew := by
  obtain ⟨hr, hin, hpk⟩ := winNew_ring madeB
  obtain ⟨g1, g2⟩ := win_made_ring (tab := tab) wf laid ra saneA madeA
  obtain ⟨g3, g4⟩ := win_made_ring (tab := tab) wf laid rb saneB hr
  simp only [Nat.add_mul] at below
  obtain ⟨f1, f2, -, q, sp, n, f3, f4, f5, -⟩ := WinWrites.inv wf laid W fuel g3 (by simp [WinWorld.put]) g4
    (by rw [hin]) hpk tb (by omega)
  obtain ⟨h1, h2⟩ := WinQueue.holds wf laid g1 g2 ta
  obtain ⟨a, _, ca, -⟩ := id h2
  refine ⟨WinLaid.shows (f1.inv wf laid).laid, a, q, ca.held, f2, f5, fun k obj kw sh => ?_⟩
  obtain ⟨va, -⟩ := h2.view wf laid h1 ca.held kw sh
  obtain ⟨vb, -⟩ := f3.view wf laid f1 f2 kw sh
  refine ⟨va.fillBuf, vb.readSlice, ?_⟩
  obtain ⟨k', a', b', x, w', sa', s', acc', c', fits', ew, moved, lost, e, ta', ha', tb', hc, rc, hh, hb', kw', sh', fr, lg,
    cons, pm, od, res⟩ := win_ring_to_writer wf laid W hW fuel rounds pos hij g1 g2 steps ta ca.held tb f1 f3 f2 kw sh
      (by simp only [Nat.mul_assoc] at below ⊢; omega) 0
  obtain ⟨i1, i2⟩ := WinQueue.holds wf laid g1 g2 ta'
  refine ⟨k', a', b', x, w', sa', s'.q, acc', c', fits', ew, moved, lost, e, ta', tb', hc, ha', hb', kw', sh', fr,
    (i2.view wf laid i1 ha' kw' sh').1.fillBuf, (hh.view wf laid rc hb' kw' sh').1.readSlice, lg, cons, pm,
    fun h => od (.inr h), ?_⟩
  cases x with
  | ok n =>
    obtain ⟨r1, r2, r3⟩ := res
    subst r2
    rw [r3, List.append_nil, List.append_nil] at cons
    exact ⟨by rw [r1, cons, Nat.zero_add], cons.symm, rfl, r3⟩
  | err e => exact res
  | unwound => exact res
  | pending => exact res

/-- C185, why the order is not always kept, on Windows as on Unix: the writer's buffer holds something, and the ring
exactly as many bytes as there is room for in it; the inner writer takes everything and has received nothing yet.  In
every memory of the process the copy and a `flush` succeed, but the inner writer receives the bytes of the ring before those that
were written earlier. -/
theorem C185_order_false (wf : WinWf t s0) (laid : WinLaid t s0) {wa wb w : WinWorld}
    (ra : WinReach tab t s0 wa) (rb : WinReach tab t s0 wb) {ha hb : Nat}
    (saneA : 2 * (ha + wa.s.gran) < t.lim) (saneB : 2 * (hb + wb.s.gran) < t.lim) {s1 s2 : Vmap.Win} {a0 : Ring}
    {b0 b : BufWriter (Unit × List WriteEvent)} (madeA : wa.s.ringNew t ha = .ok (s1, .ok a0))
    (madeB : BufWriter.winNew t wb.s ((), []) hb = .ok (s2, .ok b0)) {sa : Spec.Win}
    {acc : List Byte} {c fuel : Nat} {fits : Prop}
    (ta : WinQueue tab t wa.next (SeqWrite.writeCapacity a0) (wa.put s1 (.ring a0)) w sa)
    (tb : WinWrites takesAll.spy fuel tab t wb.next (wb.put s2 (.ring b0.buf)) b0 w b acc c fits)
    (below : c * SeqWrite.writeCapacity b0.buf < posBound t (SeqWrite.writeCapacity b0.buf))
    (log : b.inner.2 = []) (some_ : sa.q ≠ []) (part : b.buf.readLen t ≠ .ok 0)
    (fit : b.buf.writeLen t = .ok sa.q.length) {size : Nat} (one : sa.q.length ≤ size) (rounds steps fuel' : Nat) :
    ∃ a qw, w.held wa.next = some (.ring a) ∧ qw ≠ [] ∧ qw.Perm acc ∧ ∀ k obj, Wf t k → WinShows w.s k obj →
      b.buffered t k = .ok qw ∧
      ∃ a' b' b'', Ring.copyToWriter takesAll.spy t fuel (rounds + 2) size (steps + 2) k a b 0 =
          .ok (k, a', b', .ok sa.q.length) ∧
        b'.flush takesAll.spy t (fuel' + 2) k = .ok (b'', .ok ()) ∧ received b''.inner.2 = sa.q ++ qw := by
  obtain ⟨hr, hin, hpk⟩ := winNew_ring madeB
  obtain ⟨g1, g2⟩ := win_made_ring (tab := tab) wf laid ra saneA madeA
  obtain ⟨g3, g4⟩ := win_made_ring (tab := tab) wf laid rb saneB hr
  obtain ⟨f1, f2, -, q, sp, n, f3, f4, f5, -⟩ := WinWrites.inv wf laid takesAll fuel g3 (by simp [WinWorld.put]) g4
    (by rw [hin]) hpk tb below
  obtain ⟨h1, h2⟩ := WinQueue.holds wf laid g1 g2 ta
  obtain ⟨a, _, ca, -⟩ := id h2
  rw [log] at f5
  have hq : q ≠ [] := by
    obtain ⟨k, obj, kw, sh⟩ := WinLaid.shows (f1.inv wf laid).laid
    obtain ⟨vb, -⟩ := f3.view wf laid f1 f2 kw sh
    rintro rfl
    exact part vb.readLen
  refine ⟨a, q, ca.held, hq, by simpa [received] using f5, fun k obj kw sh => ?_⟩
  obtain ⟨va, -⟩ := h2.view wf laid h1 ca.held kw sh
  obtain ⟨vb, -⟩ := f3.view wf laid f1 f2 kw sh
  exact ⟨vb.readSlice, C172_order_false va.at_ vb.at_ va.fillBuf vb.readSlice log some_ hq fit one fuel rounds steps fuel'⟩

end

/-- A program on the example system: a ring with one byte in it, and a `BufWriter` with `d` buffered. -/
theorem winDemo_ring_writer (d : List Byte) (hd : d.length = 131071) : ∃ (s1 s2 : Vmap.Win) (a0 : Ring) (b0 b : BufWriter (Unit × List WriteEvent))
      (w : WinWorld) (sa : Spec.Win) (fits : Prop),
    (winDemo []).ringNew ⟨.w64, true⟩ 5000 = .ok (s1, .ok a0) ∧
    BufWriter.winNew ⟨.w64, true⟩ s1 ((), []) 70000 = .ok (s2, .ok b0) ∧
    WinReach winTab ⟨.w64, true⟩ (winDemo []) ((WinWorld.start (winDemo [])).put s1 (.ring a0)) ∧
    2 * (70000 + s1.gran) < Target.lim ⟨.w64, true⟩ ∧
    WinQueue winTab ⟨.w64, true⟩ 0 (SeqWrite.writeCapacity a0) ((WinWorld.start (winDemo [])).put s1 (.ring a0)) w sa ∧
    WinWrites takesAll.spy 2 winTab ⟨.w64, true⟩ 1
      (((WinWorld.start (winDemo [])).put s1 (.ring a0)).put s2 (.ring b0.buf)) b0 w b d 1 fits ∧
    SeqWrite.writeCapacity b0.buf = 131072 ∧ sa.q = [9] ∧ b.inner.2 = [] ∧ b.buf.readLen ⟨.w64, true⟩ ≠ .ok 0 ∧
    b.buf.writeLen ⟨.w64, true⟩ = .ok 1 := by
  obtain ⟨s1, a0, s2, b0, ma, mb, hg, ca, cb⟩ := winDemo_rings
  obtain ⟨g1, g2⟩ := win_made_ring (tab := winTab) (winDemo_wf []) (winDemo_laid []) .start (by decide) ma
  have saneB : 2 * (70000 + ((WinWorld.start (winDemo [])).put s1 (.ring a0)).s.gran) < Target.lim ⟨.w64, true⟩ := by
    show 2 * (70000 + s1.gran) < _
    rw [hg]; decide
  have md : BufWriter.winNew ⟨.w64, true⟩ s1 (((), []) : Unit × List WriteEvent) 70000 =
      .ok (s2, .ok ⟨b0, ((), []), false⟩) := by
    simp only [BufWriter.winNew, mb, bind, Except.bind]; rfl
  obtain ⟨g3, g4⟩ := win_made_ring (tab := winTab) (winDemo_wf []) (winDemo_laid []) g1 saneB mb
  have t0 : WinQueue winTab ⟨.w64, true⟩ 0 (SeqWrite.writeCapacity a0)
      ((WinWorld.start (winDemo [])).put s1 (.ring a0)) (((WinWorld.start (winDemo [])).put s1 (.ring a0)).put s2 (.ring b0)) _ :=
    .other (op := .newRing 70000) .made saneB
      (by
        have mb' : ((WinWorld.start (winDemo [])).put s1 (.ring a0)).s.ringNew ⟨.w64, true⟩ 70000 = .ok (s2, .ok b0) := mb
        simp only [WinWorld.step, mb', bind, Except.bind]; rfl)
      (fun _ _ _ h => by cases h) (fun h => by cases h)
  have bound : 3 < posBound ⟨.w64, true⟩ (SeqWrite.writeCapacity a0) := by rw [ca]; decide
  obtain ⟨⟨r, -, -, h⟩, -, k, obj, kw, sh⟩ := C129_ring (tab := winTab) (winDemo_wf []) (winDemo_laid []) .start
    (by decide) ma t0
  have need : ((⟨List.replicate (SeqWrite.writeCapacity a0) 0, [], 0⟩ : Spec.Win).step (.write [9])).1.total <
      posBound ⟨.w64, true⟩ (SeqWrite.writeCapacity a0) := by
    refine Nat.lt_of_le_of_lt ?_ bound
    simp only [Win.step]; simp; omega
  obtain ⟨-, -, w1, -, call, -⟩ := (h k obj kw sh).2.2 (.write [9]) need
  have t1 := t0.call need call
  have hq : ((⟨List.replicate (SeqWrite.writeCapacity a0) 0, [], 0⟩ : Spec.Win).step (.write [9])).1.q = [9] := by
    simp only [Win.step, List.nil_append, List.length_replicate, ca]; rfl
  obtain ⟨u1, u2, u3, u4⟩ := Spec.WinWrites.keep (W := takesAll.spy) (fuel := 2) (i := 1) (j := 0) (winDemo_wf [])
    (winDemo_laid []) (b := (⟨b0, ((), []), false⟩ : BufWriter (Unit × List WriteEvent))) (by decide)
    (.ring .refl rfl call) .made g3 g4 rfl
  obtain ⟨k, obj, kw, sh⟩ := WinLaid.shows (u2.inv (winDemo_wf []) (winDemo_laid [])).laid
  obtain ⟨v, hl⟩ := u3.view (winDemo_wf []) (winDemo_laid []) u2 u4 kw sh
  simp only at v hl
  have hlen : b0.len = 131072 := cb
  have hpb : posBound ⟨.w64, true⟩ 131072 = 18446744073709551616 := by decide
  obtain ⟨k1, b1, x1, e1, l1, -, c1⟩ := writeRest_view takesAll (b := ⟨b0, ((), []), false⟩) v
    (by simp only [hlen, hpb]; decide) d
  rcases c1 with ⟨big, -⟩ | ⟨-, hx1, hin1, hp1, n1, sp1, hn1, v1⟩
  · simp only [hlen, List.length_nil] at big; omega
  subst hx1
  have hvl := v.len
  simp only [List.length_nil] at hvl
  have w1e : BufWriter.write takesAll.spy ⟨.w64, true⟩ 2 k ⟨b0, ((), []), false⟩ d = .ok (k1, b1, .ok d.length) := by
    simp only [BufWriter.write, v.writeLen, bind, Except.bind]
    rw [if_neg (by omega), e1]
  have ex : BufWriter.exec takesAll.spy ⟨.w64, true⟩ 2 k ⟨b0, ((), []), false⟩ (.write d) = .ok ((k1, b1), .ok d.length) := by
    simp only [BufWriter.exec, w1e, bind, Except.bind, pure, Except.pure]
  obtain ⟨wz, ⟨u, hu, hb⟩, st, f1, f2, f3, f4, f5⟩ := u3.used (winDemo_wf []) (winDemo_laid []) u2 u4 kw sh (c := 1)
    (by simp only [cb, hpb]; decide) (wr_exec_uses ex) v1
  have t3 := u1.call ⟨u, k, obj, k1, u4, hu, hb, kw, sh, ex, st u hu hb⟩
  have bs := WinBeside.step (winDemo_wf []) (winDemo_laid []) u2 (st u hu hb)
  have hv1 := v1.len
  rw [l1] at hv1
  simp only [hlen, List.nil_append] at hv1
  have hacc : [] ++ WrOp.accepted (.write d) (.ok d.length) = d := by simp [WrOp.accepted]
  rw [hacc] at t3
  refine ⟨s1, s2, a0, _, b1, wz, _, _, ma, md, g1, saneB, bs.1 _ _ _ _ (by decide) t1, t3, cb, hq, by rw [hin1], ?_, ?_⟩
  · rw [v1.readLen]
    intro h; injection h with h
    simp only [List.nil_append] at h
    omega
  · rw [v1.writeLen]; congr 1; omega

/-- Non-vacuity: a ring with one byte, and a writer of capacity 131072 with 131071 bytes buffered; the hypotheses of
`C185_ring_to_writer_partial` hold, and those of `C185_order_false`. -/
example : WinWf ⟨.w64, true⟩ (winDemo []) ∧ WinLaid ⟨.w64, true⟩ (winDemo []) ∧ takesAll.Honest ∧
    ∃ (s1 s2 : Vmap.Win) (a0 : Ring) (b0 b : BufWriter (Unit × List WriteEvent))
      (w : WinWorld) (sa : Spec.Win) (fits : Prop),
    (winDemo []).ringNew ⟨.w64, true⟩ 5000 = .ok (s1, .ok a0) ∧
    BufWriter.winNew ⟨.w64, true⟩ s1 ((), []) 70000 = .ok (s2, .ok b0) ∧
    WinQueue winTab ⟨.w64, true⟩ 0 (SeqWrite.writeCapacity a0) ((WinWorld.start (winDemo [])).put s1 (.ring a0)) w sa ∧
    WinWrites takesAll.spy 2 winTab ⟨.w64, true⟩ 1
      (((WinWorld.start (winDemo [])).put s1 (.ring a0)).put s2 (.ring b0.buf)) b0 w b (List.replicate 131071 7) 1 fits ∧
    (1 + 10 * 10) * SeqWrite.writeCapacity b0.buf < posBound ⟨.w64, true⟩ (SeqWrite.writeCapacity b0.buf) ∧
    b.inner.2 = [] ∧ sa.q ≠ [] ∧ b.buf.readLen ⟨.w64, true⟩ ≠ .ok 0 ∧
    b.buf.writeLen ⟨.w64, true⟩ = .ok sa.q.length ∧ sa.q.length ≤ 8192 := by
  obtain ⟨s1, s2, a0, b0, b, w, sa, fits, h1, h2, -, -, h3, h4, h5, h6, h7, h8, h9⟩ :=
    winDemo_ring_writer (List.replicate 131071 7) List.length_replicate
  refine ⟨winDemo_wf [], winDemo_laid [], ?_, s1, s2, a0, b0, b, w, sa, fits, h1, h2, h3, h4, ?_, h7, by rw [h6]; simp, h8,
    by rw [h9, h6]; rfl, by rw [h6]; simp⟩
  · intro s data; simp [takesAll]
  · rw [h5]; decide

end Vmap
