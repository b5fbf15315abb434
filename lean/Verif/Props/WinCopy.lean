import Verif.Proofs.WinCopy
import Verif.Props.WinBuffer
/-
C179: `std::io::copy` between rings in whole programs on Windows.
-/
namespace Vmap
open Spec Kernel

section
variable {tab : SysTable} {t : Target} {s0 : Vmap.Win}

/-- C179: a program on Windows makes two `Ring`s, at any two times, and uses them, and does anything else; then
it calls `io::copy` from the one to the other.  In every memory the process can have: if the readable bytes
of the source fit into the target, the result is `Ok` with their number, they are all appended to the
target, and the source is empty; if not, the result is `WriteZero`, the target is filled, and the source has
lost whole pieces up to the first that did not fit.  Nothing is done but to call functions of the two
rings, and both can be used on, in the memory the copy leaves, as before. -/
theorem C179_ring_to_ring (wf : WinWf t s0) (laid : WinLaid t s0) {wa wb w : WinWorld} (ra : WinReach tab t s0 wa)
    (rb : WinReach tab t s0 wb) {ha hb : Nat} (saneA : 2 * (ha + wa.s.gran) < t.lim)
    (saneB : 2 * (hb + wb.s.gran) < t.lim) {s1 s2 : Vmap.Win} {a0 b0 : Ring}
    (madeA : wa.s.ringNew t ha = .ok (s1, .ok a0)) (madeB : wb.s.ringNew t hb = .ok (s2, .ok b0))
    (hij : wa.next ≠ wb.next) {sa sb : Spec.Win}
    (ta : WinQueue tab t wa.next (SeqWrite.writeCapacity a0) (wa.put s1 (.ring a0)) w sa)
    (tb : WinQueue tab t wb.next (SeqWrite.writeCapacity b0) (wb.put s2 (.ring b0)) w sb)
    {size : Nat} (pos : 0 < size) {steps : Nat} (enough : sa.q.length < steps)
    (below : sb.total + min sa.q.length sb.spare.length < posBound t (SeqWrite.writeCapacity b0)) :
    (∃ k obj, Wf t k ∧ WinShows w.s k obj) ∧
    ∃ a b, w.held wa.next = some (.ring a) ∧ w.held wb.next = some (.ring b) ∧ ∀ k obj, Wf t k → WinShows w.s k obj →
      a.fillBuf t k = .ok sa.q ∧ b.fillBuf t k = .ok sb.q ∧ b.writeLen t = .ok sb.spare.length ∧
      ∃ k' a' b' w' sa' sb', Ring.copyToRing t size steps k a b = .ok (k', a', b',
          some (if sa.q.length ≤ sb.spare.length then .ok sa.q.length else .error (.ofKind .writeZero))) ∧
        WinOnlyCalls tab t (fun l => l = wa.next ∨ l = wb.next) w w' ∧
        w'.held wa.next = some (.ring a') ∧ w'.held wb.next = some (.ring b') ∧ Wf t k' ∧ WinShows w'.s k' obj ∧
        WinQueue tab t wa.next (SeqWrite.writeCapacity a0) (wa.put s1 (.ring a0)) w' sa' ∧
        WinQueue tab t wb.next (SeqWrite.writeCapacity b0) (wb.put s2 (.ring b0)) w' sb' ∧
        sa'.q = sa.q.drop (leaves size sb.spare.length sa.q.length) ∧ a'.fillBuf t k' = .ok sa'.q ∧
        sb'.q = sb.q ++ sa.q.take sb.spare.length ∧ b'.fillBuf t k' = .ok sb'.q := by
  obtain ⟨g1, g2⟩ := win_made_ring (tab := tab) wf laid ra saneA madeA
  obtain ⟨g3, g4⟩ := win_made_ring (tab := tab) wf laid rb saneB madeB
  obtain ⟨h1, h2⟩ := WinQueue.holds wf laid g1 g2 ta
  obtain ⟨h3, h4⟩ := WinQueue.holds wf laid g3 g4 tb
  refine ⟨WinLaid.shows (h1.inv wf laid).laid, ?_⟩
  obtain ⟨a, _, ca, -⟩ := id h2
  obtain ⟨b, _, cb, -⟩ := id h4
  refine ⟨a, b, ca.held, cb.held, fun k obj kw sh => ?_⟩
  obtain ⟨va, -⟩ := h2.view wf laid h1 ca.held kw sh
  obtain ⟨vb, -⟩ := h4.view wf laid h3 cb.held kw sh
  refine ⟨va.fillBuf, vb.fillBuf, vb.writeLen, ?_⟩
  obtain ⟨k', a', b', w', sb', e, c, ⟨sa', ta', ha', qa'⟩, hb', tb', qb', kw', sh'⟩ := win_to_ring hij wf laid g3 g4
    (win_ring_source wf laid g1 g2) pos steps 0 ⟨sa, ta, ca.held, rfl⟩ cb.held tb kw sh below enough
  obtain ⟨i1, i2⟩ := WinQueue.holds wf laid g1 g2 ta'
  obtain ⟨i3, i4⟩ := WinQueue.holds wf laid g3 g4 tb'
  refine ⟨k', a', b', w', sa', sb', by rw [Ring.copyToRing, e, Nat.zero_add], c, ha', hb', kw', sh', ta', tb', qa', ?_, qb', ?_⟩
  · exact (i2.view wf laid i1 ha' kw' sh').1.fillBuf
  · exact (i4.view wf laid i3 hb' kw' sh').1.fillBuf

/-- C179: from an `InfiniteRing` to a `Ring`. -/
theorem C179_infinite_to_ring (wf : WinWf t s0) (laid : WinLaid t s0) {wa wb w : WinWorld} (ra : WinReach tab t s0 wa)
    (rb : WinReach tab t s0 wb) {ha hb : Nat} (saneA : 2 * (ha + wa.s.gran) < t.lim)
    (saneB : 2 * (hb + wb.s.gran) < t.lim) {s1 s2 : Vmap.Win} {a0 : InfiniteRing} {b0 : Ring}
    (madeA : wa.s.infNew t ha = .ok (s1, .ok a0)) (madeB : wb.s.ringNew t hb = .ok (s2, .ok b0))
    (hij : wa.next ≠ wb.next) {sa : Lossy} {sb : Spec.Win}
    (ta : WinLossy tab t wa.next (SeqWrite.writeCapacity a0) (wa.put s1 (.inf a0)) w sa)
    (tb : WinQueue tab t wb.next (SeqWrite.writeCapacity b0) (wb.put s2 (.ring b0)) w sb)
    {size : Nat} (pos : 0 < size) {steps : Nat} (enough : sa.q.length < steps)
    (below : sb.total + min sa.q.length sb.spare.length < posBound t (SeqWrite.writeCapacity b0)) :
    (∃ k obj, Wf t k ∧ WinShows w.s k obj) ∧
    ∃ a b, w.held wa.next = some (.inf a) ∧ w.held wb.next = some (.ring b) ∧ ∀ k obj, Wf t k → WinShows w.s k obj →
      a.fillBuf t k = .ok sa.q ∧ b.fillBuf t k = .ok sb.q ∧ b.writeLen t = .ok sb.spare.length ∧
      ∃ k' a' b' w' sa' sb', InfiniteRing.copyToRing t size steps k a b = .ok (k', a', b',
          some (if sa.q.length ≤ sb.spare.length then .ok sa.q.length else .error (.ofKind .writeZero))) ∧
        WinOnlyCalls tab t (fun l => l = wa.next ∨ l = wb.next) w w' ∧
        w'.held wa.next = some (.inf a') ∧ w'.held wb.next = some (.ring b') ∧ Wf t k' ∧ WinShows w'.s k' obj ∧
        WinLossy tab t wa.next (SeqWrite.writeCapacity a0) (wa.put s1 (.inf a0)) w' sa' ∧
        WinQueue tab t wb.next (SeqWrite.writeCapacity b0) (wb.put s2 (.ring b0)) w' sb' ∧
        sa'.q = sa.q.drop (leaves size sb.spare.length sa.q.length) ∧ a'.fillBuf t k' = .ok sa'.q ∧
        sb'.q = sb.q ++ sa.q.take sb.spare.length ∧ b'.fillBuf t k' = .ok sb'.q := by
  obtain ⟨g1, g2⟩ := win_made_inf (tab := tab) wf laid ra saneA madeA
  obtain ⟨g3, g4⟩ := win_made_ring (tab := tab) wf laid rb saneB madeB
  obtain ⟨h3, h4⟩ := WinQueue.holds wf laid g3 g4 tb
  obtain ⟨⟨a, heldA, -, fa⟩, -, shown⟩ := C129_infinite wf laid ra saneA madeA ta
  refine ⟨shown, ?_⟩
  obtain ⟨b, _, cb, -⟩ := id h4
  refine ⟨a, b, heldA, cb.held, fun k obj kw sh => ?_⟩
  obtain ⟨vb, -⟩ := h4.view wf laid h3 cb.held kw sh
  refine ⟨(fa k obj kw sh).1, vb.fillBuf, vb.writeLen, ?_⟩
  obtain ⟨k', a', b', w', sb', e, c, ⟨sa', ta', ha', qa'⟩, hb', tb', qb', kw', sh'⟩ := win_to_ring hij wf laid g3 g4
    (win_inf_source wf laid g1 g2) pos steps 0 ⟨sa, ta, heldA, rfl⟩ cb.held tb kw sh below enough
  obtain ⟨i3, i4⟩ := WinQueue.holds wf laid g3 g4 tb'
  refine ⟨k', a', b', w', sa', sb', by rw [InfiniteRing.copyToRing, e, Nat.zero_add], c, ha', hb', kw', sh', ta', tb', qa', ?_,
    qb', ?_⟩
  · obtain ⟨⟨a2, heldA2, -, fa2⟩, -⟩ := C129_infinite wf laid ra saneA madeA ta'
    rw [ha'] at heldA2; injection heldA2 with heldA2; injection heldA2 with heldA2; subst heldA2
    exact (fa2 k' obj kw' sh').1
  · exact (i4.view wf laid i3 hb' kw' sh').1.fillBuf

/-- C179: from a `Ring` to an `InfiniteRing`: the result is always `Ok`, the source is empty, and the target
holds the last capacity bytes of what both held.  (A `write_all` to an infinite ring counts as the `write` of the
bytes it keeps.) -/
theorem C179_ring_to_infinite (wf : WinWf t s0) (laid : WinLaid t s0) {wa wb w : WinWorld} (ra : WinReach tab t s0 wa)
    (rb : WinReach tab t s0 wb) {ha hb : Nat} (saneA : 2 * (ha + wa.s.gran) < t.lim)
    (saneB : 2 * (hb + wb.s.gran) < t.lim) {s1 s2 : Vmap.Win} {a0 : Ring} {b0 : InfiniteRing}
    (madeA : wa.s.ringNew t ha = .ok (s1, .ok a0)) (madeB : wb.s.infNew t hb = .ok (s2, .ok b0))
    (hij : wa.next ≠ wb.next) {sa : Spec.Win} {sb : Lossy}
    (ta : WinQueue tab t wa.next (SeqWrite.writeCapacity a0) (wa.put s1 (.ring a0)) w sa)
    (tb : WinLossy tab t wb.next (SeqWrite.writeCapacity b0) (wb.put s2 (.inf b0)) w sb)
    {size : Nat} (pos : 0 < size) {steps : Nat} (enough : sa.q.length < steps)
    (below : sb.total + sa.q.length < posBound t (SeqWrite.writeCapacity b0)) :
    (∃ k obj, Wf t k ∧ WinShows w.s k obj) ∧
    ∃ a b, w.held wa.next = some (.ring a) ∧ w.held wb.next = some (.inf b) ∧ ∀ k obj, Wf t k → WinShows w.s k obj →
      a.fillBuf t k = .ok sa.q ∧ b.fillBuf t k = .ok sb.q ∧
      ∃ k' a' b' w' sa' sb', Ring.copyToInfinite t size steps k a b = .ok (k', a', b', some (.ok sa.q.length)) ∧
        WinOnlyCalls tab t (fun l => l = wa.next ∨ l = wb.next) w w' ∧
        w'.held wa.next = some (.ring a') ∧ w'.held wb.next = some (.inf b') ∧ Wf t k' ∧ WinShows w'.s k' obj ∧
        WinQueue tab t wa.next (SeqWrite.writeCapacity a0) (wa.put s1 (.ring a0)) w' sa' ∧
        WinLossy tab t wb.next (SeqWrite.writeCapacity b0) (wb.put s2 (.inf b0)) w' sb' ∧
        sa'.q = [] ∧ a'.fillBuf t k' = .ok [] ∧
        sb'.q = lastN (SeqWrite.writeCapacity b0) (sb.q ++ sa.q) ∧ b'.fillBuf t k' = .ok sb'.q := by
  obtain ⟨g1, g2⟩ := win_made_ring (tab := tab) wf laid ra saneA madeA
  obtain ⟨g3, g4⟩ := win_made_inf (tab := tab) wf laid rb saneB madeB
  obtain ⟨⟨a, heldA, -, fa⟩, -, shown⟩ := C129_ring wf laid ra saneA madeA ta
  obtain ⟨⟨b, heldB, -, fb⟩, -⟩ := C129_infinite wf laid rb saneB madeB tb
  refine ⟨shown, a, b, heldA, heldB, fun k obj kw sh => ⟨(fa k obj kw sh).1, (fb k obj kw sh).1, ?_⟩⟩
  obtain ⟨k', a', b', w', sb', e, c, ⟨sa', ta', ha', qa'⟩, hb', tb', qb', kw', sh'⟩ := win_to_inf hij wf laid g3 g4
    (win_ring_source wf laid g1 g2) pos steps 0 ⟨sa, ta, heldA, rfl⟩ heldB tb kw sh below enough
  refine ⟨k', a', b', w', sa', sb', by rw [Ring.copyToInfinite, e, Nat.zero_add], c, ha', hb', kw', sh', ta', tb', qa', ?_,
    qb', ?_⟩
  · obtain ⟨⟨a2, heldA2, -, fa2⟩, -⟩ := C129_ring wf laid ra saneA madeA ta'
    rw [ha'] at heldA2; injection heldA2 with heldA2; injection heldA2 with heldA2; subst heldA2
    rw [← qa']; exact (fa2 k' obj kw' sh').1
  · obtain ⟨⟨b2, heldB2, -, fb2⟩, -⟩ := C129_infinite wf laid rb saneB madeB tb'
    rw [hb'] at heldB2; injection heldB2 with heldB2; injection heldB2 with heldB2; subst heldB2
    exact (fb2 k' obj kw' sh').1

/-- C179: from one `InfiniteRing` to another. -/
theorem C179_infinite_to_infinite (wf : WinWf t s0) (laid : WinLaid t s0) {wa wb w : WinWorld} (ra : WinReach tab t s0 wa)
    (rb : WinReach tab t s0 wb) {ha hb : Nat} (saneA : 2 * (ha + wa.s.gran) < t.lim)
    (saneB : 2 * (hb + wb.s.gran) < t.lim) {s1 s2 : Vmap.Win} {a0 : InfiniteRing} {b0 : InfiniteRing}
    (madeA : wa.s.infNew t ha = .ok (s1, .ok a0)) (madeB : wb.s.infNew t hb = .ok (s2, .ok b0))
    (hij : wa.next ≠ wb.next) {sa : Lossy} {sb : Lossy}
    (ta : WinLossy tab t wa.next (SeqWrite.writeCapacity a0) (wa.put s1 (.inf a0)) w sa)
    (tb : WinLossy tab t wb.next (SeqWrite.writeCapacity b0) (wb.put s2 (.inf b0)) w sb)
    {size : Nat} (pos : 0 < size) {steps : Nat} (enough : sa.q.length < steps)
    (below : sb.total + sa.q.length < posBound t (SeqWrite.writeCapacity b0)) :
    (∃ k obj, Wf t k ∧ WinShows w.s k obj) ∧
    ∃ a b, w.held wa.next = some (.inf a) ∧ w.held wb.next = some (.inf b) ∧ ∀ k obj, Wf t k → WinShows w.s k obj →
      a.fillBuf t k = .ok sa.q ∧ b.fillBuf t k = .ok sb.q ∧
      ∃ k' a' b' w' sa' sb', InfiniteRing.copyToInfinite t size steps k a b = .ok (k', a', b', some (.ok sa.q.length)) ∧
        WinOnlyCalls tab t (fun l => l = wa.next ∨ l = wb.next) w w' ∧
        w'.held wa.next = some (.inf a') ∧ w'.held wb.next = some (.inf b') ∧ Wf t k' ∧ WinShows w'.s k' obj ∧
        WinLossy tab t wa.next (SeqWrite.writeCapacity a0) (wa.put s1 (.inf a0)) w' sa' ∧
        WinLossy tab t wb.next (SeqWrite.writeCapacity b0) (wb.put s2 (.inf b0)) w' sb' ∧
        sa'.q = [] ∧ a'.fillBuf t k' = .ok [] ∧
        sb'.q = lastN (SeqWrite.writeCapacity b0) (sb.q ++ sa.q) ∧ b'.fillBuf t k' = .ok sb'.q := by
  obtain ⟨g1, g2⟩ := win_made_inf (tab := tab) wf laid ra saneA madeA
  obtain ⟨g3, g4⟩ := win_made_inf (tab := tab) wf laid rb saneB madeB
  obtain ⟨⟨a, heldA, -, fa⟩, -, shown⟩ := C129_infinite wf laid ra saneA madeA ta
  obtain ⟨⟨b, heldB, -, fb⟩, -⟩ := C129_infinite wf laid rb saneB madeB tb
  refine ⟨shown, a, b, heldA, heldB, fun k obj kw sh => ⟨(fa k obj kw sh).1, (fb k obj kw sh).1, ?_⟩⟩
  obtain ⟨k', a', b', w', sb', e, c, ⟨sa', ta', ha', qa'⟩, hb', tb', qb', kw', sh'⟩ := win_to_inf hij wf laid g3 g4
    (win_inf_source wf laid g1 g2) pos steps 0 ⟨sa, ta, heldA, rfl⟩ heldB tb kw sh below enough
  refine ⟨k', a', b', w', sa', sb', by rw [InfiniteRing.copyToInfinite, e, Nat.zero_add], c, ha', hb', kw', sh', ta', tb', qa', ?_,
    qb', ?_⟩
  · obtain ⟨⟨a2, heldA2, -, fa2⟩, -⟩ := C129_infinite wf laid ra saneA madeA ta'
    rw [ha'] at heldA2; injection heldA2 with heldA2; injection heldA2 with heldA2; subst heldA2
    rw [← qa']; exact (fa2 k' obj kw' sh').1
  · obtain ⟨⟨b2, heldB2, -, fb2⟩, -⟩ := C129_infinite wf laid rb saneB madeB tb'
    rw [hb'] at heldB2; injection heldB2 with heldB2; injection heldB2 with heldB2; subst heldB2
    exact (fb2 k' obj kw' sh').1

end

/-- A second ring on the example system. -/
theorem winDemo_rings : ∃ s1 r0 s2 r1, (winDemo []).ringNew ⟨.w64, true⟩ 5000 = .ok (s1, .ok r0) ∧
    s1.ringNew ⟨.w64, true⟩ 70000 = .ok (s2, .ok r1) ∧ s1.gran = 65536 ∧ SeqWrite.writeCapacity r0 = 65536 ∧
    SeqWrite.writeCapacity r1 = 131072 := by
  have h : ((winDemo []).ringNew ⟨.w64, true⟩ 5000 >>= fun x => x.1.ringNew ⟨.w64, true⟩ 70000 >>= fun y =>
      pure (x.2, x.1.gran, y.2)) = .ok (.ok ⟨68157440, 65536, 0, 0⟩, 65536, .ok ⟨74448896, 131072, 0, 0⟩) := by
    decide +kernel
  cases hx : (winDemo []).ringNew ⟨.w64, true⟩ 5000 with
  | error f => rw [hx] at h; cases h
  | ok x =>
    rw [hx] at h
    simp only [bind, Except.bind] at h
    cases hy : x.1.ringNew ⟨.w64, true⟩ 70000 with
    | error f => rw [hy] at h; cases h
    | ok y =>
      rw [hy] at h
      simp only [pure, Except.pure, Except.ok.injEq, Prod.mk.injEq] at h
      exact ⟨x.1, _, y.1, _, by rw [← h.1], by rw [hy, ← h.2.2], h.2.1, rfl, rfl⟩

/-- Non-vacuity: a program makes two rings, writes three bytes to the first, and copies; then the second
holds them. -/
example : WinWf ⟨.w64, true⟩ (winDemo []) ∧ WinLaid ⟨.w64, true⟩ (winDemo []) ∧
    ∃ (s1 s2 : Vmap.Win) (a0 b0 : Ring) (w w' : WinWorld) (sa sb sb' : Spec.Win),
    (winDemo []).ringNew ⟨.w64, true⟩ 5000 = .ok (s1, .ok a0) ∧ s1.ringNew ⟨.w64, true⟩ 70000 = .ok (s2, .ok b0) ∧
    WinQueue winTab ⟨.w64, true⟩ 0 (SeqWrite.writeCapacity a0) ((WinWorld.start (winDemo [])).put s1 (.ring a0)) w sa ∧
    WinQueue winTab ⟨.w64, true⟩ 1 (SeqWrite.writeCapacity b0)
      (((WinWorld.start (winDemo [])).put s1 (.ring a0)).put s2 (.ring b0)) w sb ∧
    sa.q = [1, 2, 3] ∧ sb.q = [] ∧ WinOnlyCalls winTab ⟨.w64, true⟩ (fun l => l = 0 ∨ l = 1) w w' ∧
    WinQueue winTab ⟨.w64, true⟩ 1 (SeqWrite.writeCapacity b0)
      (((WinWorld.start (winDemo [])).put s1 (.ring a0)).put s2 (.ring b0)) w' sb' ∧ sb'.q = [1, 2, 3] := by
  refine ⟨winDemo_wf [], winDemo_laid [], ?_⟩
  obtain ⟨s1, a0, s2, b0, ma, mb, hg, ca, cb⟩ := winDemo_rings
  obtain ⟨g1, g2⟩ := win_made_ring (tab := winTab) (winDemo_wf []) (winDemo_laid []) .start (by decide) ma
  have saneB : 2 * (70000 + ((WinWorld.start (winDemo [])).put s1 (.ring a0)).s.gran) < Target.lim ⟨.w64, true⟩ := by
    show 2 * (70000 + s1.gran) < _
    rw [hg]; decide
  obtain ⟨g3, g4⟩ := win_made_ring (tab := winTab) (winDemo_wf []) (winDemo_laid []) g1 saneB mb
  have t0 : WinQueue winTab ⟨.w64, true⟩ 0 (SeqWrite.writeCapacity a0)
      ((WinWorld.start (winDemo [])).put s1 (.ring a0)) (((WinWorld.start (winDemo [])).put s1 (.ring a0)).put s2 (.ring b0)) _ :=
    .other (op := .newRing 70000) .made saneB
      (by
        have mb' : ((WinWorld.start (winDemo [])).put s1 (.ring a0)).s.ringNew ⟨.w64, true⟩ 70000 = .ok (s2, .ok b0) := mb
        simp only [WinWorld.step, mb', bind, Except.bind]; rfl)
      (fun _ _ _ h => by cases h) (fun h => by cases h)
  have bound : 3 < posBound ⟨.w64, true⟩ (SeqWrite.writeCapacity a0) := by rw [ca]; decide
  obtain ⟨⟨r, -, -, h⟩, -, k, obj, kw, sh⟩ := C129_ring (tab := winTab) (winDemo_wf []) (winDemo_laid []) .start
    (by decide) ma t0
  have need : ((⟨List.replicate (SeqWrite.writeCapacity a0) 0, [], 0⟩ : Spec.Win).step (.write [1, 2, 3])).1.total <
      posBound ⟨.w64, true⟩ (SeqWrite.writeCapacity a0) := by
    refine Nat.lt_of_le_of_lt ?_ bound
    simp only [Win.step]; simp; omega
  obtain ⟨-, -, w1, -, call, -⟩ := (h k obj kw sh).2.2 (.write [1, 2, 3]) need
  have t1 := t0.call need call
  obtain ⟨t2, -⟩ := Spec.WinQueue.keep (j := 0) (i := 1) (winDemo_wf []) (winDemo_laid []) g3 g4 (by decide) .made rfl
    (.ring .refl rfl call)
  have hq : ((⟨List.replicate (SeqWrite.writeCapacity a0) 0, [], 0⟩ : Spec.Win).step (.write [1, 2, 3])).1.q = [1, 2, 3] := by
    simp only [Win.step, List.nil_append, List.length_replicate, ca]; rfl
  obtain ⟨⟨k, obj, kw, sh⟩, a, b, -, -, res⟩ := C179_ring_to_ring (winDemo_wf []) (winDemo_laid []) .start g1 (by decide)
    saneB ma mb (by show (0 : Nat) ≠ 1; decide) t1 t2 (size := 8192) (by decide) (steps := 4) (by rw [hq]; decide) (by
      rw [hq, List.length_replicate, cb]; decide)
  obtain ⟨-, -, -, k', a', b', w', sa', sb', -, c, -, -, -, -, -, t4, -, -, q4, -⟩ := res k obj kw sh
  refine ⟨s1, s2, a0, b0, w1, w', _, _, sb', ma, mb, t1, t2, hq, rfl, c, t4, ?_⟩
  rw [q4, hq, List.length_replicate, cb]; rfl

/-- An infinite ring and a ring on the example system. -/
theorem winDemo_inf_ring : ∃ s1 r0 s2 r1, (winDemo []).infNew ⟨.w64, true⟩ 5000 = .ok (s1, .ok r0) ∧
    s1.ringNew ⟨.w64, true⟩ 70000 = .ok (s2, .ok r1) ∧ s1.gran = 65536 ∧ SeqWrite.writeCapacity r0 = 65536 ∧
    SeqWrite.writeCapacity r1 = 131072 := by
  have h : ((winDemo []).infNew ⟨.w64, true⟩ 5000 >>= fun x => x.1.ringNew ⟨.w64, true⟩ 70000 >>= fun y =>
      pure (x.2, x.1.gran, y.2)) = .ok (.ok ⟨68157440, 65536, 0, 0⟩, 65536, .ok ⟨74448896, 131072, 0, 0⟩) := by
    decide +kernel
  cases hx : (winDemo []).infNew ⟨.w64, true⟩ 5000 with
  | error f => rw [hx] at h; cases h
  | ok x =>
    rw [hx] at h
    simp only [bind, Except.bind] at h
    cases hy : x.1.ringNew ⟨.w64, true⟩ 70000 with
    | error f => rw [hy] at h; cases h
    | ok y =>
      rw [hy] at h
      simp only [pure, Except.pure, Except.ok.injEq, Prod.mk.injEq] at h
      exact ⟨x.1, _, y.1, _, by rw [← h.1], by rw [hy, ← h.2.2], h.2.1, rfl, rfl⟩

/-- Non-vacuity: the same with an infinite ring as the source. -/
example : WinWf ⟨.w64, true⟩ (winDemo []) ∧ WinLaid ⟨.w64, true⟩ (winDemo []) ∧
    ∃ (s1 s2 : Vmap.Win) (a0 : InfiniteRing) (b0 : Ring) (w w' : WinWorld) (sa : Lossy) (sb sb' : Spec.Win),
    (winDemo []).infNew ⟨.w64, true⟩ 5000 = .ok (s1, .ok a0) ∧ s1.ringNew ⟨.w64, true⟩ 70000 = .ok (s2, .ok b0) ∧
    WinLossy winTab ⟨.w64, true⟩ 0 (SeqWrite.writeCapacity a0) ((WinWorld.start (winDemo [])).put s1 (.inf a0)) w sa ∧
    WinQueue winTab ⟨.w64, true⟩ 1 (SeqWrite.writeCapacity b0)
      (((WinWorld.start (winDemo [])).put s1 (.inf a0)).put s2 (.ring b0)) w sb ∧
    sa.q = [1, 2, 3] ∧ sb.q = [] ∧ WinOnlyCalls winTab ⟨.w64, true⟩ (fun l => l = 0 ∨ l = 1) w w' ∧
    WinQueue winTab ⟨.w64, true⟩ 1 (SeqWrite.writeCapacity b0)
      (((WinWorld.start (winDemo [])).put s1 (.inf a0)).put s2 (.ring b0)) w' sb' ∧ sb'.q = [1, 2, 3] := by
  refine ⟨winDemo_wf [], winDemo_laid [], ?_⟩
  obtain ⟨s1, a0, s2, b0, ma, mb, hg, ca, cb⟩ := winDemo_inf_ring
  obtain ⟨g1, g2⟩ := win_made_inf (tab := winTab) (winDemo_wf []) (winDemo_laid []) .start (by decide) ma
  have saneB : 2 * (70000 + ((WinWorld.start (winDemo [])).put s1 (.inf a0)).s.gran) < Target.lim ⟨.w64, true⟩ := by
    show 2 * (70000 + s1.gran) < _
    rw [hg]; decide
  obtain ⟨g3, g4⟩ := win_made_ring (tab := winTab) (winDemo_wf []) (winDemo_laid []) g1 saneB mb
  have t0 : WinLossy winTab ⟨.w64, true⟩ 0 (SeqWrite.writeCapacity a0)
      ((WinWorld.start (winDemo [])).put s1 (.inf a0)) (((WinWorld.start (winDemo [])).put s1 (.inf a0)).put s2 (.ring b0)) _ :=
    .other (op := .newRing 70000) .made saneB
      (by
        have mb' : ((WinWorld.start (winDemo [])).put s1 (.inf a0)).s.ringNew ⟨.w64, true⟩ 70000 = .ok (s2, .ok b0) := mb
        simp only [WinWorld.step, mb', bind, Except.bind]; rfl)
      (fun _ _ _ h => by cases h) (fun h => by cases h)
  have bound : 3 < posBound ⟨.w64, true⟩ (SeqWrite.writeCapacity a0) := by rw [ca]; decide
  obtain ⟨⟨r, -, -, h⟩, -, k, obj, kw, sh⟩ := C129_infinite (tab := winTab) (winDemo_wf []) (winDemo_laid []) .start
    (by decide) ma t0
  have hs : ((⟨List.replicate (SeqWrite.writeCapacity a0) 0, [], 0⟩ : Lossy).step (.write [1, 2, 3])).1.q = [1, 2, 3] ∧
      ((⟨List.replicate (SeqWrite.writeCapacity a0) 0, [], 0⟩ : Lossy).step (.write [1, 2, 3])).1.total = 3 := by
    have h3 : 3 ≤ SeqWrite.writeCapacity a0 := by rw [ca]; decide
    generalize SeqWrite.writeCapacity a0 = c at h3
    have hm : min 3 c = 3 := Nat.min_eq_left h3
    simp [Lossy.step, Lossy.all, Lossy.append, hm]
    rw [lastN, List.drop_drop, List.length_append, List.length_replicate]
    have : c + [(1 : Byte), 2, 3].length - c + (c - 3) = c := by simp only [List.length_cons, List.length_nil]; omega
    rw [this, List.drop_append_of_le_length (by simp), List.drop_eq_nil_of_le (by simp), List.nil_append]
  have need := Nat.lt_of_le_of_lt (Nat.le_of_eq hs.2) bound
  obtain ⟨-, -, w1, -, call, -⟩ := (h k obj kw sh).2.2 (.write [1, 2, 3]) need trivial
  have t1 := t0.call need (by simp) trivial call
  obtain ⟨t2, -⟩ := Spec.WinQueue.keep (j := 0) (i := 1) (winDemo_wf []) (winDemo_laid []) g3 g4 (by decide) .made rfl
    (.inf .refl rfl call)
  have hq := hs.1
  obtain ⟨⟨k, obj, kw, sh⟩, a, b, -, -, res⟩ := C179_infinite_to_ring (winDemo_wf []) (winDemo_laid []) .start g1 (by decide)
    saneB ma mb (by show (0 : Nat) ≠ 1; decide) t1 t2 (size := 8192) (by decide) (steps := 4) (by rw [hq]; decide) (by
      rw [hq, List.length_replicate, cb]; decide)
  obtain ⟨-, -, -, k', a', b', w', sa', sb', -, c, -, -, -, -, -, t4, -, -, q4, -⟩ := res k obj kw sh
  refine ⟨s1, s2, a0, b0, w1, w', _, _, sb', ma, mb, t1, t2, hq, rfl, c, t4, ?_⟩
  rw [q4, hq, List.length_replicate, cb]; rfl

/-- Non-vacuity: the infinite ring is made first, then the ring, three bytes are written to the ring and copied. -/
example : WinWf ⟨.w64, true⟩ (winDemo []) ∧ WinLaid ⟨.w64, true⟩ (winDemo []) ∧
    ∃ (s1 s2 : Vmap.Win) (a0 : InfiniteRing) (b0 : Ring) (w w' : WinWorld) (sa sa' : Lossy) (sb : Spec.Win),
    (winDemo []).infNew ⟨.w64, true⟩ 5000 = .ok (s1, .ok a0) ∧ s1.ringNew ⟨.w64, true⟩ 70000 = .ok (s2, .ok b0) ∧
    WinLossy winTab ⟨.w64, true⟩ 0 (SeqWrite.writeCapacity a0) ((WinWorld.start (winDemo [])).put s1 (.inf a0)) w sa ∧
    WinQueue winTab ⟨.w64, true⟩ 1 (SeqWrite.writeCapacity b0)
      (((WinWorld.start (winDemo [])).put s1 (.inf a0)).put s2 (.ring b0)) w sb ∧
    sa.q = [] ∧ sb.q = [1, 2, 3] ∧ WinOnlyCalls winTab ⟨.w64, true⟩ (fun l => l = 1 ∨ l = 0) w w' ∧
    WinLossy winTab ⟨.w64, true⟩ 0 (SeqWrite.writeCapacity a0) ((WinWorld.start (winDemo [])).put s1 (.inf a0)) w' sa' ∧
    sa'.q = [1, 2, 3] := by
  refine ⟨winDemo_wf [], winDemo_laid [], ?_⟩
  obtain ⟨s1, a0, s2, b0, ma, mb, hg, ca, cb⟩ := winDemo_inf_ring
  obtain ⟨g1, g2⟩ := win_made_inf (tab := winTab) (winDemo_wf []) (winDemo_laid []) .start (by decide) ma
  have saneB : 2 * (70000 + ((WinWorld.start (winDemo [])).put s1 (.inf a0)).s.gran) < Target.lim ⟨.w64, true⟩ := by
    show 2 * (70000 + s1.gran) < _
    rw [hg]; decide
  obtain ⟨g3, g4⟩ := win_made_ring (tab := winTab) (winDemo_wf []) (winDemo_laid []) g1 saneB mb
  have t0 : WinLossy winTab ⟨.w64, true⟩ 0 (SeqWrite.writeCapacity a0)
      ((WinWorld.start (winDemo [])).put s1 (.inf a0)) (((WinWorld.start (winDemo [])).put s1 (.inf a0)).put s2 (.ring b0)) _ :=
    .other (op := .newRing 70000) .made saneB
      (by
        have mb' : ((WinWorld.start (winDemo [])).put s1 (.inf a0)).s.ringNew ⟨.w64, true⟩ 70000 = .ok (s2, .ok b0) := mb
        simp only [WinWorld.step, mb', bind, Except.bind]; rfl)
      (fun _ _ _ h => by cases h) (fun h => by cases h)
  have bound : 3 < posBound ⟨.w64, true⟩ (SeqWrite.writeCapacity b0) := by rw [cb]; decide
  obtain ⟨⟨r, -, -, h⟩, -, k, obj, kw, sh⟩ := C129_ring (tab := winTab) (winDemo_wf []) (winDemo_laid []) g1 saneB mb .made
  have need : ((⟨List.replicate (SeqWrite.writeCapacity b0) 0, [], 0⟩ : Spec.Win).step (.write [1, 2, 3])).1.total <
      posBound ⟨.w64, true⟩ (SeqWrite.writeCapacity b0) := by
    refine Nat.lt_of_le_of_lt ?_ bound
    simp only [Win.step]; simp; omega
  obtain ⟨-, -, w1, -, call, -⟩ := (h k obj kw sh).2.2 (.write [1, 2, 3]) need
  have t1 := Spec.WinQueue.call .made need call
  obtain ⟨t2, -⟩ := Spec.WinLossy.keep (j := 1) (i := 0) (winDemo_wf []) (winDemo_laid []) g1 g2 (by decide) t0 rfl
    (.ring .refl rfl call)
  have hq : ((⟨List.replicate (SeqWrite.writeCapacity b0) 0, [], 0⟩ : Spec.Win).step (.write [1, 2, 3])).1.q = [1, 2, 3] := by
    simp only [Win.step, List.nil_append, List.length_replicate, cb]; rfl
  obtain ⟨⟨k, obj, kw, sh⟩, a, b, -, -, res⟩ := C179_ring_to_infinite (winDemo_wf []) (winDemo_laid []) g1 .start saneB
    (by decide) mb ma (by show (1 : Nat) ≠ 0; decide) t1 t2 (size := 8192) (by decide) (steps := 4) (by rw [hq]; decide) (by
      rw [hq, ca]; decide)
  obtain ⟨-, -, k', a', b', w', sb', sa', -, c, -, -, -, -, -, t4, -, -, q4, -⟩ := res k obj kw sh
  refine ⟨s1, s2, a0, b0, w1, w', _, sa', _, ma, mb, t2, t1, rfl, hq, c, t4, ?_⟩
  rw [q4, hq, ca]; rfl

/-- Two infinite rings on the example system. -/
theorem winDemo_infs : ∃ s1 r0 s2 r1, (winDemo []).infNew ⟨.w64, true⟩ 5000 = .ok (s1, .ok r0) ∧
    s1.infNew ⟨.w64, true⟩ 70000 = .ok (s2, .ok r1) ∧ s1.gran = 65536 ∧ SeqWrite.writeCapacity r0 = 65536 ∧
    SeqWrite.writeCapacity r1 = 131072 := by
  have h : ((winDemo []).infNew ⟨.w64, true⟩ 5000 >>= fun x => x.1.infNew ⟨.w64, true⟩ 70000 >>= fun y =>
      pure (x.2, x.1.gran, y.2)) = .ok (.ok ⟨68157440, 65536, 0, 0⟩, 65536, .ok ⟨74448896, 131072, 0, 0⟩) := by
    decide +kernel
  cases hx : (winDemo []).infNew ⟨.w64, true⟩ 5000 with
  | error f => rw [hx] at h; cases h
  | ok x =>
    rw [hx] at h
    simp only [bind, Except.bind] at h
    cases hy : x.1.infNew ⟨.w64, true⟩ 70000 with
    | error f => rw [hy] at h; cases h
    | ok y =>
      rw [hy] at h
      simp only [pure, Except.pure, Except.ok.injEq, Prod.mk.injEq] at h
      exact ⟨x.1, _, y.1, _, by rw [← h.1], by rw [hy, ← h.2.2], h.2.1, rfl, rfl⟩

/-- Non-vacuity: two infinite rings. -/
example : WinWf ⟨.w64, true⟩ (winDemo []) ∧ WinLaid ⟨.w64, true⟩ (winDemo []) ∧
    ∃ (s1 s2 : Vmap.Win) (a0 b0 : InfiniteRing) (w w' : WinWorld) (sa sb sb' : Lossy),
    (winDemo []).infNew ⟨.w64, true⟩ 5000 = .ok (s1, .ok a0) ∧ s1.infNew ⟨.w64, true⟩ 70000 = .ok (s2, .ok b0) ∧
    WinLossy winTab ⟨.w64, true⟩ 0 (SeqWrite.writeCapacity a0) ((WinWorld.start (winDemo [])).put s1 (.inf a0)) w sa ∧
    WinLossy winTab ⟨.w64, true⟩ 1 (SeqWrite.writeCapacity b0)
      (((WinWorld.start (winDemo [])).put s1 (.inf a0)).put s2 (.inf b0)) w sb ∧
    sa.q = [1, 2, 3] ∧ sb.q = [] ∧ WinOnlyCalls winTab ⟨.w64, true⟩ (fun l => l = 0 ∨ l = 1) w w' ∧
    WinLossy winTab ⟨.w64, true⟩ 1 (SeqWrite.writeCapacity b0)
      (((WinWorld.start (winDemo [])).put s1 (.inf a0)).put s2 (.inf b0)) w' sb' ∧ sb'.q = [1, 2, 3] := by
  refine ⟨winDemo_wf [], winDemo_laid [], ?_⟩
  obtain ⟨s1, a0, s2, b0, ma, mb, hg, ca, cb⟩ := winDemo_infs
  obtain ⟨g1, g2⟩ := win_made_inf (tab := winTab) (winDemo_wf []) (winDemo_laid []) .start (by decide) ma
  have saneB : 2 * (70000 + ((WinWorld.start (winDemo [])).put s1 (.inf a0)).s.gran) < Target.lim ⟨.w64, true⟩ := by
    show 2 * (70000 + s1.gran) < _
    rw [hg]; decide
  obtain ⟨g3, g4⟩ := win_made_inf (tab := winTab) (winDemo_wf []) (winDemo_laid []) g1 saneB mb
  have t0 : WinLossy winTab ⟨.w64, true⟩ 0 (SeqWrite.writeCapacity a0)
      ((WinWorld.start (winDemo [])).put s1 (.inf a0)) (((WinWorld.start (winDemo [])).put s1 (.inf a0)).put s2 (.inf b0)) _ :=
    .other (op := .newInf 70000) .made saneB
      (by
        have mb' : ((WinWorld.start (winDemo [])).put s1 (.inf a0)).s.infNew ⟨.w64, true⟩ 70000 = .ok (s2, .ok b0) := mb
        simp only [WinWorld.step, mb', bind, Except.bind]; rfl)
      (fun _ _ _ h => by cases h) (fun h => by cases h)
  have bound : 3 < posBound ⟨.w64, true⟩ (SeqWrite.writeCapacity a0) := by rw [ca]; decide
  obtain ⟨⟨r, -, -, h⟩, -, k, obj, kw, sh⟩ := C129_infinite (tab := winTab) (winDemo_wf []) (winDemo_laid []) .start
    (by decide) ma t0
  have hs : ((⟨List.replicate (SeqWrite.writeCapacity a0) 0, [], 0⟩ : Lossy).step (.write [1, 2, 3])).1.q = [1, 2, 3] ∧
      ((⟨List.replicate (SeqWrite.writeCapacity a0) 0, [], 0⟩ : Lossy).step (.write [1, 2, 3])).1.total = 3 := by
    have h3 : 3 ≤ SeqWrite.writeCapacity a0 := by rw [ca]; decide
    generalize SeqWrite.writeCapacity a0 = c at h3
    have hm : min 3 c = 3 := Nat.min_eq_left h3
    simp [Lossy.step, Lossy.all, Lossy.append, hm]
    rw [lastN, List.drop_drop, List.length_append, List.length_replicate]
    have : c + [(1 : Byte), 2, 3].length - c + (c - 3) = c := by simp only [List.length_cons, List.length_nil]; omega
    rw [this, List.drop_append_of_le_length (by simp), List.drop_eq_nil_of_le (by simp), List.nil_append]
  have need := Nat.lt_of_le_of_lt (Nat.le_of_eq hs.2) bound
  obtain ⟨-, -, w1, -, call, -⟩ := (h k obj kw sh).2.2 (.write [1, 2, 3]) need trivial
  have t1 := t0.call need (by simp) trivial call
  obtain ⟨t2, -⟩ := Spec.WinLossy.keep (j := 0) (i := 1) (winDemo_wf []) (winDemo_laid []) g3 g4 (by decide) .made rfl
    (.inf .refl rfl call)
  have hq := hs.1
  obtain ⟨⟨k, obj, kw, sh⟩, a, b, -, -, res⟩ := C179_infinite_to_infinite (winDemo_wf []) (winDemo_laid []) .start g1
    (by decide) saneB ma mb (by show (0 : Nat) ≠ 1; decide) t1 t2 (size := 8192) (by decide) (steps := 4) (by rw [hq]; decide)
    (by rw [hq, cb]; decide)
  obtain ⟨-, -, k', a', b', w', sa', sb', -, c, -, -, -, -, -, t4, -, -, q4, -⟩ := res k obj kw sh
  refine ⟨s1, s2, a0, b0, w1, w', _, _, sb', ma, mb, t1, t2, hq, rfl, c, t4, ?_⟩
  rw [q4, hq, cb]; rfl

end Vmap
