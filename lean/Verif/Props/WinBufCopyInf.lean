import Verif.Proofs.WinBufCopyInf
import Verif.Props.WinBufCopy
/-
C184: `std::io::copy` from a `BufReader` to an `InfiniteRing` in whole programs on Windows.
-/
namespace Vmap
open Spec Kernel

section
variable {σ : Type} {tab : SysTable} {t : Target} {s0 : Vmap.Win}

/-- C184: as `C183_reader_to_ring` for an `InfiniteRing`.  The ring never refuses: whatever happens, in every memory
the process can have, the bytes read are those moved (`moved`) and those still in the reader's buffer, nothing is lost
on the way, and the ring holds the last bytes of what it held and `moved`, as many as it has capacity for.  `Ok(n)`:
everything up to end of file was moved and `n` is its length, however little of it the ring still holds.  An error or panic
is the inner reader's.  Both can be used on, in the memory the copy leaves, as before, and every other `Ring` of the
program holds what it held. -/
theorem C184_reader_to_infinite (wf : WinWf t s0) (laid : WinLaid t s0) {wa wb w : WinWorld} (ra : WinReach tab t s0 wa)
    (rb : WinReach tab t s0 wb) (R : Reader σ) (hR : R.Honest) (inner : σ) {ha hb : Nat}
    (saneA : 2 * (ha + wa.s.gran) < t.lim) (saneB : 2 * (hb + wb.s.gran) < t.lim) {s1 s2 : Vmap.Win}
    {r0 r : BufReader (σ × List ReadEvent)} {b0 : InfiniteRing}
    (madeA : BufReader.winNew t wa.s (inner, []) ha = .ok (s1, .ok r0))
    (madeB : wb.s.infNew t hb = .ok (s2, .ok b0)) (hij : wa.next ≠ wb.next) {out : List Byte} {c : Nat} {sb : Lossy}
    (ta : WinReads R.spy tab t wa.next (wa.put s1 (.ring r0.buf)) r0 w r out c)
    (tb : WinLossy tab t wb.next (SeqWrite.writeCapacity b0) (wb.put s2 (.inf b0)) w sb)
    (steps : Nat) (dst : Nat → List Byte) (hd : ∀ i, dst i ≠ [])
    (belowr : (c + steps) * SeqWrite.writeCapacity r0.buf < posBound t (SeqWrite.writeCapacity r0.buf))
    (belowb : sb.total + steps * SeqWrite.writeCapacity b0 < posBound t (SeqWrite.writeCapacity b0)) :
    (∃ k obj, Wf t k ∧ WinShows w.s k obj) ∧
    ∃ b qr, w.held wa.next = some (.ring r.buf) ∧ w.held wb.next = some (.inf b) ∧ out ++ qr = taken r.inner.2 ∧
      ∀ k obj, Wf t k → WinShows w.s k obj →
      r.buffer t k = .ok qr ∧ b.fillBuf t k = .ok sb.q ∧
      ∃ k' r' b' x w' out' c' qr' sb' er moved,
        BufReader.copyToInfinite R.spy t steps dst k r b 0 = .ok (k', r', b', x) ∧
        WinReads R.spy tab t wa.next (wa.put s1 (.ring r0.buf)) r0 w' r' out' c' ∧ c' ≤ c + steps ∧
        WinLossy tab t wb.next (SeqWrite.writeCapacity b0) (wb.put s2 (.inf b0)) w' sb' ∧
        w'.held wa.next = some (.ring r'.buf) ∧ w'.held wb.next = some (.inf b') ∧ Wf t k' ∧ WinShows w'.s k' obj ∧
        (∀ l cap w0 s, wa.next ≠ l → wb.next ≠ l → WinQueue tab t l cap w0 w s → WinQueue tab t l cap w0 w' s) ∧
        r'.buffer t k' = .ok qr' ∧ sb'.q = lastN (SeqWrite.writeCapacity b0) (sb.q ++ moved) ∧
        b'.fillBuf t k' = .ok (lastN (SeqWrite.writeCapacity b0) (sb.q ++ moved)) ∧
        r'.inner.2 = r.inner.2 ++ er ∧ qr ++ taken er = moved ++ qr' ∧
        match x with
        | .ok c => c = moved.length ∧ qr' = [] ∧ SaidEof er
        | .err e => SaidErr er e
        | .unwound => SaidPanic er
        | .pending => steps ≤ moved.length + interrupts er := by
  obtain ⟨r1, hr, h0⟩ : ∃ r, wa.s.ringNew t ha = .ok (s1, .ok r) ∧ r0 = ⟨r, (inner, []), 0⟩ := by
    simp only [BufReader.winNew, bind, Except.bind] at madeA
    split at madeA
    · cases madeA
    · rename_i x hx
      split at madeA <;> cases madeA
      exact ⟨_, hx, rfl⟩
  subst h0
  obtain ⟨g1, g2⟩ := win_made_ring (tab := tab) wf laid ra saneA hr
  obtain ⟨g3, g4⟩ := win_made_inf (tab := tab) wf laid rb saneB madeB
  simp only [Nat.add_mul] at belowr
  obtain ⟨f1, f2, q, sp, n, f3, f4, f5⟩ := WinReads.inv wf laid R g1 (by simp [WinWorld.put]) g2 rfl ta (by omega)
  obtain ⟨⟨b, heldB, -, fb⟩, -⟩ := C129_infinite wf laid rb saneB madeB tb
  refine ⟨WinLaid.shows (f1.inv wf laid).laid, b, q, f2, heldB, f5, fun k obj kw sh => ?_⟩
  obtain ⟨va, -⟩ := f3.view wf laid f1 f2 kw sh
  refine ⟨va.readSlice, (fb k obj kw sh).1, ?_⟩
  obtain ⟨k', r', b', x, w', out', c', n', qr', sp', s', er, moved, e, tr', hc, rc, hh, heldA, tb', heldB', kw', sh',
      fr, hq, lg, cons, res⟩ := win_reader_to_inf wf laid R hR hij g3 g4 steps dst hd ta f1 f3 f2 tb heldB kw sh
    (by omega) belowb 0
  obtain ⟨⟨b2, heldB2, -, fb2⟩, -⟩ := C129_infinite wf laid rb saneB madeB tb'
  rw [heldB'] at heldB2; injection heldB2 with heldB2; injection heldB2 with heldB2; subst heldB2
  refine ⟨k', r', b', x, w', out', c', qr', s', er, moved, e, tr', hc, tb', heldA, heldB', kw', sh', fr,
    (hh.view wf laid rc heldA kw' sh').1.readSlice, hq, by rw [(fb2 k' obj kw' sh').1, hq], lg, cons, ?_⟩
  cases x with
  | ok c => simpa only [Nat.zero_add] using res
  | err e => exact res
  | unwound => exact res
  | pending => exact res

end

/-- Non-vacuity: a program makes an infinite ring, then a `BufReader` over a reader with three bytes, and fills the
reader's buffer; then the hypotheses of `C184_reader_to_infinite` hold. -/
example : WinWf ⟨.w64, true⟩ (winDemo []) ∧ WinLaid ⟨.w64, true⟩ (winDemo []) ∧ pieces.Honest ∧
    ∃ (s1 s2 : Vmap.Win) (r0 r : BufReader (List (List Byte) × List ReadEvent)) (b0 : InfiniteRing) (w : WinWorld)
      (out : List Byte) (sb : Lossy),
    (winDemo []).infNew ⟨.w64, true⟩ 5000 = .ok (s1, .ok b0) ∧
    BufReader.winNew ⟨.w64, true⟩ s1 ([[1], [2, 3]], []) 70000 = .ok (s2, .ok r0) ∧
    WinReads pieces.spy winTab ⟨.w64, true⟩ 1
      (((WinWorld.start (winDemo [])).put s1 (.inf b0)).put s2 (.ring r0.buf)) r0 w r out 1 ∧
    WinLossy winTab ⟨.w64, true⟩ 0 (SeqWrite.writeCapacity b0) ((WinWorld.start (winDemo [])).put s1 (.inf b0)) w sb ∧
    (1 + 1000) * SeqWrite.writeCapacity r0.buf < posBound ⟨.w64, true⟩ (SeqWrite.writeCapacity r0.buf) ∧
    sb.total + 1000 * SeqWrite.writeCapacity b0 < posBound ⟨.w64, true⟩ (SeqWrite.writeCapacity b0) := by
  have hp : pieces.Honest := by
    intro s off
    cases s with
    | nil => simp [pieces]
    | cons c cs => by_cases h : c.length ≤ off.length <;> simp [pieces, h]
  refine ⟨winDemo_wf [], winDemo_laid [], hp, ?_⟩
  obtain ⟨s1, a0, s2, b0, ma, mb, hg, ca, cb⟩ := winDemo_inf_ring
  have md : BufReader.winNew ⟨.w64, true⟩ ((WinWorld.start (winDemo [])).put s1 (.inf a0)).s
      (([[1], [2, 3]], []) : List (List Byte) × List ReadEvent) 70000 = .ok (s2, .ok ⟨b0, ([[1], [2, 3]], []), 0⟩) := by
    have mb' : ((WinWorld.start (winDemo [])).put s1 (.inf a0)).s.ringNew ⟨.w64, true⟩ 70000 = .ok (s2, .ok b0) := mb
    simp only [BufReader.winNew, mb', bind, Except.bind]; rfl
  obtain ⟨g1, g2⟩ := win_made_inf (tab := winTab) (winDemo_wf []) (winDemo_laid []) .start (by decide) ma
  have saneB : 2 * (70000 + ((WinWorld.start (winDemo [])).put s1 (.inf a0)).s.gran) < Target.lim ⟨.w64, true⟩ := by
    show 2 * (70000 + s1.gran) < _
    rw [hg]; decide
  have t0 : WinLossy winTab ⟨.w64, true⟩ 0 (SeqWrite.writeCapacity a0)
      ((WinWorld.start (winDemo [])).put s1 (.inf a0)) (((WinWorld.start (winDemo [])).put s1 (.inf a0)).put s2 (.ring b0)) _ :=
    .other (op := .newRing 70000) .made saneB
      (by
        have mb' : ((WinWorld.start (winDemo [])).put s1 (.inf a0)).s.ringNew ⟨.w64, true⟩ 70000 = .ok (s2, .ok b0) := mb
        simp only [WinWorld.step, mb', bind, Except.bind]; rfl)
      (fun _ _ _ h => by cases h) (fun h => by cases h)
  have bound : ∀ c, c ≤ 1001 → c * SeqWrite.writeCapacity b0 < posBound ⟨.w64, true⟩ (SeqWrite.writeCapacity b0) := by
    intro c h
    have : posBound ⟨.w64, true⟩ 131072 = 18446744073709551616 := by decide
    rw [cb, this]; omega
  obtain ⟨-, -, ⟨q, n, -, -, -, h⟩, k, obj, kw, sh⟩ := C143_reader (tab := winTab) (winDemo_wf []) (winDemo_laid []) g1 pieces
    [[1], [2, 3]] saneB md .made (bound _ (by omega))
  obtain ⟨-, b1, x1, o1, w1, -, call, -⟩ := (h k obj kw sh).2.2 .fillBuf
  have t1 := (WinReads.made (R := pieces.spy) (tab := winTab) (t := ⟨.w64, true⟩) (i := 1)).call call
  obtain ⟨v, k1, obj1, k1', -, -, -, -, -, -, st⟩ := call
  refine ⟨s1, s2, _, b1, a0, w1, _, _, ma, md, t1,
    .other (op := .ringUse 1 _ _ _) t0 trivial st (by intro a b c h; cases h) (fun h => by cases h),
    bound _ (by omega), ?_⟩
  simp only [ca]; decide

end Vmap
