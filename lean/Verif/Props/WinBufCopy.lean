import Verif.Proofs.WinBufCopy
import Verif.Props.WinCopy
import Verif.Props.BufCopy
/-
C183: `std::io::copy` from a `BufReader` to a `Ring` in whole programs on Windows.
-/
namespace Vmap
open Spec Kernel

section
variable {σ : Type} {tab : SysTable} {t : Target} {s0 : Vmap.Win}

/-- C183: a program on Windows makes a `BufReader` over any honest inner reader and a `Ring`, at any two times, uses
them, and does anything else; then it calls `io::copy` from the reader to the ring, with a copy buffer of any size.
`qr` is what the reader had buffered, `moved` what the ring took and `lost` what was read but did not fit.  In every
memory the process can have: the bytes read are `moved`, then `lost`, then what is still in the reader's buffer; the
ring has `moved` appended, no more than its room.  `Ok(n)`: everything up to end of file was moved, and `n` is its length.
An error is that of the inner reader (then nothing is lost), or `WriteZero`: then the ring is full and something is
lost.  A panic is that of the inner reader, and nothing is lost.  Both can be used on, in the memory the copy leaves,
as before, and every other ring of the program holds what it held. -/
theorem C183_reader_to_ring (wf : WinWf t s0) (laid : WinLaid t s0) {wa wb w : WinWorld} (ra : WinReach tab t s0 wa)
    (rb : WinReach tab t s0 wb) (R : Reader σ) (hR : R.Honest) (inner : σ) {ha hb : Nat}
    (saneA : 2 * (ha + wa.s.gran) < t.lim) (saneB : 2 * (hb + wb.s.gran) < t.lim) {s1 s2 : Vmap.Win}
    {r0 r : BufReader (σ × List ReadEvent)} {b0 : Ring}
    (madeA : BufReader.winNew t wa.s (inner, []) ha = .ok (s1, .ok r0))
    (madeB : wb.s.ringNew t hb = .ok (s2, .ok b0)) (hij : wa.next ≠ wb.next) {out : List Byte} {c : Nat} {sb : Spec.Win}
    (ta : WinReads R.spy tab t wa.next (wa.put s1 (.ring r0.buf)) r0 w r out c)
    (tb : WinQueue tab t wb.next (SeqWrite.writeCapacity b0) (wb.put s2 (.ring b0)) w sb)
    (steps : Nat) (dst : Nat → List Byte) (hd : ∀ i, dst i ≠ [])
    (belowr : (c + steps) * SeqWrite.writeCapacity r0.buf < posBound t (SeqWrite.writeCapacity r0.buf))
    (belowb : sb.total + sb.spare.length < posBound t (SeqWrite.writeCapacity b0)) :
    (∃ k obj, Wf t k ∧ WinShows w.s k obj) ∧
    ∃ b qr, w.held wa.next = some (.ring r.buf) ∧ w.held wb.next = some (.ring b) ∧ out ++ qr = taken r.inner.2 ∧
      ∀ k obj, Wf t k → WinShows w.s k obj →
      r.buffer t k = .ok qr ∧ b.fillBuf t k = .ok sb.q ∧ b.writeLen t = .ok sb.spare.length ∧
      ∃ k' r' b' x w' out' c' qr' sb' er moved lost,
        BufReader.copyToRing R.spy t steps dst k r b 0 = .ok (k', r', b', x) ∧
        WinReads R.spy tab t wa.next (wa.put s1 (.ring r0.buf)) r0 w' r' out' c' ∧ c' ≤ c + steps ∧
        WinQueue tab t wb.next (SeqWrite.writeCapacity b0) (wb.put s2 (.ring b0)) w' sb' ∧
        w'.held wa.next = some (.ring r'.buf) ∧ w'.held wb.next = some (.ring b') ∧ Wf t k' ∧ WinShows w'.s k' obj ∧
        (∀ l cap w0 s, wa.next ≠ l → wb.next ≠ l → WinQueue tab t l cap w0 w s → WinQueue tab t l cap w0 w' s) ∧
        r'.buffer t k' = .ok qr' ∧ sb'.q = sb.q ++ moved ∧ b'.fillBuf t k' = .ok (sb.q ++ moved) ∧
        r'.inner.2 = r.inner.2 ++ er ∧ qr ++ taken er = moved ++ lost ++ qr' ∧ moved.length ≤ sb.spare.length ∧
        match x with
        | .ok c => c = moved.length ∧ lost = [] ∧ qr' = [] ∧ SaidEof er
        | .err e => (lost = [] ∧ SaidErr er e) ∨
            (lost ≠ [] ∧ moved.length = sb.spare.length ∧ e = .ofKind .writeZero)
        | .unwound => lost = [] ∧ SaidPanic er
        | .pending => lost = [] ∧ steps ≤ moved.length + interrupts er := by
  obtain ⟨r1, hr, h0⟩ : ∃ r, wa.s.ringNew t ha = .ok (s1, .ok r) ∧ r0 = ⟨r, (inner, []), 0⟩ := by
    simp only [BufReader.winNew, bind, Except.bind] at madeA
    split at madeA
    · cases madeA
    · rename_i x hx
      split at madeA <;> cases madeA
      exact ⟨_, hx, rfl⟩
  subst h0
  obtain ⟨g1, g2⟩ := win_made_ring (tab := tab) wf laid ra saneA hr
  obtain ⟨g3, g4⟩ := win_made_ring (tab := tab) wf laid rb saneB madeB
  simp only [Nat.add_mul] at belowr
  obtain ⟨f1, f2, q, sp, n, f3, f4, f5⟩ := WinReads.inv wf laid R g1 (by simp [WinWorld.put]) g2 rfl ta (by omega)
  obtain ⟨h3, h4⟩ := WinQueue.holds wf laid g3 g4 tb
  refine ⟨WinLaid.shows (f1.inv wf laid).laid, ?_⟩
  obtain ⟨b, _, cb, -⟩ := id h4
  refine ⟨b, q, f2, cb.held, f5, fun k obj kw sh => ?_⟩
  obtain ⟨va, -⟩ := f3.view wf laid f1 f2 kw sh
  obtain ⟨vb, -⟩ := h4.view wf laid h3 cb.held kw sh
  refine ⟨va.readSlice, vb.fillBuf, vb.writeLen, ?_⟩
  obtain ⟨k', r', b', x, w', out', c', n', qr', sp', s', er, moved, lost, e, tr', hc, rc, hh, heldA, tb', heldB, kw', sh',
      fr, hq, lg, cons, le, res⟩ := win_reader_to_ring wf laid R hR hij g3 g4 steps dst hd ta f1 f3 f2 tb cb.held kw sh
    (by omega) belowb 0
  obtain ⟨i3, i4⟩ := WinQueue.holds wf laid g3 g4 tb'
  have vb' := (i4.view wf laid i3 heldB kw' sh').1.fillBuf
  refine ⟨k', r', b', x, w', out', c', qr', s', er, moved, lost, e, tr', hc, tb', heldA, heldB, kw', sh', fr,
    (hh.view wf laid rc heldA kw' sh').1.readSlice, hq, by rw [vb', hq], lg, cons, le, ?_⟩
  cases x with
  | ok c => simpa only [Nat.zero_add] using res
  | err e => exact res
  | unwound => exact res
  | pending => exact res

end

/-- Non-vacuity: a program makes a `BufReader` over a reader with three bytes, and a ring, and fills the reader's
buffer; then the hypotheses of `C183_reader_to_ring` hold. -/
example : WinWf ⟨.w64, true⟩ (winDemo []) ∧ WinLaid ⟨.w64, true⟩ (winDemo []) ∧ pieces.Honest ∧
    ∃ (s1 s2 : Vmap.Win) (r0 r : BufReader (List (List Byte) × List ReadEvent)) (b0 : Ring) (w : WinWorld)
      (out : List Byte) (sb : Spec.Win),
    BufReader.winNew ⟨.w64, true⟩ (winDemo []) ([[1], [2, 3]], []) 5000 = .ok (s1, .ok r0) ∧
    s1.ringNew ⟨.w64, true⟩ 70000 = .ok (s2, .ok b0) ∧
    WinReads pieces.spy winTab ⟨.w64, true⟩ 0 ((WinWorld.start (winDemo [])).put s1 (.ring r0.buf)) r0 w r out 1 ∧
    WinQueue winTab ⟨.w64, true⟩ 1 (SeqWrite.writeCapacity b0)
      (((WinWorld.start (winDemo [])).put s1 (.ring r0.buf)).put s2 (.ring b0)) w sb ∧
    (1 + 1000) * SeqWrite.writeCapacity r0.buf < posBound ⟨.w64, true⟩ (SeqWrite.writeCapacity r0.buf) ∧
    sb.total + sb.spare.length < posBound ⟨.w64, true⟩ (SeqWrite.writeCapacity b0) := by
  have hp : pieces.Honest := by
    intro s off
    cases s with
    | nil => simp [pieces]
    | cons c cs => by_cases h : c.length ≤ off.length <;> simp [pieces, h]
  refine ⟨winDemo_wf [], winDemo_laid [], hp, ?_⟩
  obtain ⟨s1, a0, s2, b0, ma, mb, hg, ca, cb⟩ := winDemo_rings
  have md : BufReader.winNew ⟨.w64, true⟩ (winDemo []) (([[1], [2, 3]], []) : List (List Byte) × List ReadEvent) 5000 =
      .ok (s1, .ok ⟨a0, ([[1], [2, 3]], []), 0⟩) := by
    simp only [BufReader.winNew, ma, bind, Except.bind]; rfl
  obtain ⟨g1, g2⟩ := win_made_ring (tab := winTab) (winDemo_wf []) (winDemo_laid []) .start (by decide) ma
  have saneB : 2 * (70000 + ((WinWorld.start (winDemo [])).put s1 (.ring a0)).s.gran) < Target.lim ⟨.w64, true⟩ := by
    show 2 * (70000 + s1.gran) < _
    rw [hg]; decide
  have t0 : WinReads pieces.spy winTab ⟨.w64, true⟩ 0 ((WinWorld.start (winDemo [])).put s1 (.ring a0))
      ⟨a0, ([[1], [2, 3]], []), 0⟩ (((WinWorld.start (winDemo [])).put s1 (.ring a0)).put s2 (.ring b0)) _ _ _ :=
    .other (op := .newRing 70000) .made saneB
      (by
        have mb' : ((WinWorld.start (winDemo [])).put s1 (.ring a0)).s.ringNew ⟨.w64, true⟩ 70000 = .ok (s2, .ok b0) := mb
        simp only [WinWorld.step, mb', bind, Except.bind]; rfl)
      (fun _ _ _ h => by cases h) (fun h => by cases h)
  have bound : ∀ c, c ≤ 1001 → c * SeqWrite.writeCapacity a0 < posBound ⟨.w64, true⟩ (SeqWrite.writeCapacity a0) := by
    intro c h
    have : posBound ⟨.w64, true⟩ 65536 = 18446744073709551616 := by decide
    rw [ca, this]; omega
  obtain ⟨-, -, ⟨q, n, -, -, -, h⟩, k, obj, kw, sh⟩ := C143_reader (winDemo_wf []) (winDemo_laid []) .start pieces
    [[1], [2, 3]] (by decide) md t0 (bound _ (by omega))
  obtain ⟨-, b1, x1, o1, w1, -, call, -⟩ := (h k obj kw sh).2.2 .fillBuf
  have t1 := t0.call call
  obtain ⟨v, k1, obj1, k1', -, -, -, -, -, -, st⟩ := call
  refine ⟨s1, s2, _, b1, b0, w1, _, _, md, mb, t1,
    .other (op := .ringUse 0 _ _ _) .made trivial st (by intro a b c h; injection h with h; cases h) (fun h => by cases h),
    bound _ (by omega), ?_⟩
  simp only [List.length_replicate, cb]; decide

end Vmap
