import Verif.Proofs.WinQueue
/-
Property theorems C129: what rings hold in the course of a whole program on Windows.
-/
namespace Vmap
open Kernel Spec

section
variable {tab : SysTable} {t : Target} {s0 : Vmap.Win}

/-- The ring holds nothing when it is made. -/
theorem win_made_ring (wf : WinWf t s0) (laid : WinLaid t s0) {w : WinWorld} (reach : WinReach tab t s0 w) {hint : Nat}
    (sane : 2 * (hint + w.s.gran) < t.lim) {s1 : Vmap.Win} {r : Ring} (made : w.s.ringNew t hint = .ok (s1, .ok r)) :
    WinReach tab t s0 (w.put s1 (.ring r)) ∧
      WinHolds t (w.put s1 (.ring r)) w.next (SeqWrite.writeCapacity r) ⟨List.replicate (SeqWrite.writeCapacity r) 0, [], 0⟩ := by
  have hr : WinReach tab t s0 (w.put s1 (.ring r)) := .step (op := .newRing hint) reach sane
    (by simp only [WinWorld.step, made, bind, Except.bind]; rfl)
  refine ⟨hr, ?_⟩
  have inv := reach.inv wf laid
  obtain ⟨cap, ring, rest, wf', -, -⟩ := C91_windows_ring t inv.wf hint (by omega) r made
  have hl : 0 < r.len := by
    obtain ⟨v1, v2, -, -, -, -, -, -, l, -⟩ := (hr.inv wf laid).there w.next (.ring r) (by simp [WinWorld.put])
    omega
  obtain ⟨v, c, z⟩ := win_made_circ (w := w) (x := .ring r) (.inl ⟨r, rfl, rfl, rfl⟩) ring rest wf' hl
  have hpos : r.rpos = 0 ∧ r.wpos = 0 := by
    simp only [Win.ringNew, bind, Except.bind] at made
    split at made
    · cases made
    · split at made
      · cases made
      · split at made <;> cases made
        exact ⟨rfl, rfl⟩
  have fit := ring.place.2
  refine ⟨r, v, c, rfl, ?_, hpos.2, by simp [hpos], ?_⟩
  · rw [show (w.put s1 (.ring r)).s = s1 from rfl, secWin_zero z]
    simp [SeqWrite.writeCapacity]
  · rw [hpos.2]
    exact ⟨by simp [lim64], .inr (by simp only [SeqWrite.writeCapacity] at fit; omega)⟩

/-- The infinite ring holds nothing when it is made. -/
theorem win_made_inf (wf : WinWf t s0) (laid : WinLaid t s0) {w : WinWorld} (reach : WinReach tab t s0 w) {hint : Nat}
    (sane : 2 * (hint + w.s.gran) < t.lim) {s1 : Vmap.Win} {r : InfiniteRing} (made : w.s.infNew t hint = .ok (s1, .ok r)) :
    WinReach tab t s0 (w.put s1 (.inf r)) ∧
      WinHoldsInf t (w.put s1 (.inf r)) w.next (SeqWrite.writeCapacity r) ⟨List.replicate (SeqWrite.writeCapacity r) 0, [], 0⟩ := by
  have hr : WinReach tab t s0 (w.put s1 (.inf r)) := .step (op := .newInf hint) reach sane
    (by simp only [WinWorld.step, made, bind, Except.bind]; rfl)
  refine ⟨hr, ?_⟩
  have inv := reach.inv wf laid
  obtain ⟨cap, ring, rest, wf', -, -⟩ := C91_windows_infinite t inv.wf hint (by omega) r made
  have hl : 0 < r.len := by
    obtain ⟨v1, v2, -, -, -, -, -, -, l, -⟩ := (hr.inv wf laid).there w.next (.inf r) (by simp [WinWorld.put])
    omega
  obtain ⟨v, c, z⟩ := win_made_circ (w := w) (x := .inf r) (.inr ⟨r, rfl, rfl, rfl⟩) ring rest wf' hl
  have hpos : r.rlen = 0 ∧ r.wpos = 0 := by
    simp only [Win.infNew, bind, Except.bind] at made
    split at made
    · cases made
    · split at made
      · cases made
      · split at made <;> cases made
        exact ⟨rfl, rfl⟩
  have fit := ring.place.2
  refine ⟨r, v, c, rfl, ?_, hpos.2, by simp [hpos], by omega, ?_⟩
  · rw [show (w.put s1 (.inf r)).s = s1 from rfl, secWin_zero z]
    simp [SeqWrite.writeCapacity]
  · rw [hpos.2]
    exact ⟨by simp [lim64], .inr (by simp only [SeqWrite.writeCapacity] at fit; omega)⟩

/-- C129: a program on Windows makes a ring, and then does anything, in any order: it makes, uses and drops
other maps and rings, files change, and it calls functions of the ring.  As long as it has not dropped
the ring, in every memory the process can have, the ring's readable bytes and write slice are those of
the queue, and every call on it returns (no panic, no fault), answers as the queue does, and leaves a
memory of the process in which the next call can run. -/
theorem C129_ring (wf : WinWf t s0) (laid : WinLaid t s0) {w0 w : WinWorld} (reach : WinReach tab t s0 w0) {hint : Nat}
    (sane : 2 * (hint + w0.s.gran) < t.lim) {s1 : Vmap.Win} {r0 : Ring} (made : w0.s.ringNew t hint = .ok (s1, .ok r0))
    {s : Spec.Win} (tr : WinQueue tab t w0.next (SeqWrite.writeCapacity r0) (w0.put s1 (.ring r0)) w s) :
    (∃ r, w.held w0.next = some (.ring r) ∧ SeqWrite.writeCapacity r = SeqWrite.writeCapacity r0 ∧
      ∀ k obj, Wf t k → WinShows w.s k obj → r.fillBuf t k = .ok s.q ∧
        writeSliceBytes t k r t.usizeMax = .ok s.spare ∧
        ∀ op, (s.step op).1.total < posBound t (SeqWrite.writeCapacity r0) →
          ∃ k' r' w', r.exec t k op = .ok ((k', r'), (s.step op).2) ∧
            WinRingCall tab t w w0.next op (s.step op).2 w' ∧ w'.held w0.next = some (.ring r') ∧
            Wf t k' ∧ WinShows w'.s k' obj) ∧
    (∀ op x w', (s.step op).1.total < posBound t (SeqWrite.writeCapacity r0) →
      WinRingCall tab t w w0.next op x w' → x = (s.step op).2) ∧
    ∃ k obj, Wf t k ∧ WinShows w.s k obj := by
  obtain ⟨hr, start⟩ := win_made_ring wf laid reach sane made
  obtain ⟨h1, h2⟩ := WinQueue.holds wf laid hr start tr
  refine ⟨?_, fun op x w' below call => (WinHolds.call wf laid h1 h2 below call).2.2, WinLaid.shows (h1.inv wf laid).laid⟩
  obtain ⟨r, v, c, e, all, total, qlen, pos⟩ := id h2
  refine ⟨r, c.held, e, fun k obj kw sh => ?_⟩
  rw [← e] at c
  have rep := WinHolds.rep wf laid h1 c all total qlen pos sh
  exact ⟨rep.fillBuf_eq, rep.writeSlice_all, fun op below => WinHolds.run wf laid h1 c.held h2 below kw sh⟩

/-- C129 for an infinite ring. -/
theorem C129_infinite (wf : WinWf t s0) (laid : WinLaid t s0) {w0 w : WinWorld} (reach : WinReach tab t s0 w0) {hint : Nat}
    (sane : 2 * (hint + w0.s.gran) < t.lim) {s1 : Vmap.Win} {r0 : InfiniteRing} (made : w0.s.infNew t hint = .ok (s1, .ok r0))
    {s : Lossy} (tr : WinLossy tab t w0.next (SeqWrite.writeCapacity r0) (w0.put s1 (.inf r0)) w s) :
    (∃ r, w.held w0.next = some (.inf r) ∧ SeqWrite.writeCapacity r = SeqWrite.writeCapacity r0 ∧
      ∀ k obj, Wf t k → WinShows w.s k obj → r.fillBuf t k = .ok s.q ∧
        writeSliceBytes t k r t.usizeMax = .ok (s.old ++ s.q) ∧
        ∀ op, (s.step op).1.total < posBound t (SeqWrite.writeCapacity r0) → FeedOk (SeqWrite.writeCapacity r0) op →
          ∃ k' r' w', r.exec t k op = .ok ((k', r'), (s.step op).2) ∧
            WinInfCall tab t w w0.next op (s.step op).2 w' ∧ w'.held w0.next = some (.inf r') ∧
            Wf t k' ∧ WinShows w'.s k' obj) ∧
    (∀ op x w', (s.step op).1.total < posBound t (SeqWrite.writeCapacity r0) → FeedOk (SeqWrite.writeCapacity r0) op →
      WinInfCall tab t w w0.next op x w' → x = (s.step op).2) ∧
    ∃ k obj, Wf t k ∧ WinShows w.s k obj := by
  obtain ⟨hr, start⟩ := win_made_inf wf laid reach sane made
  obtain ⟨h1, h2⟩ := WinLossy.holds wf laid hr start tr
  refine ⟨?_, fun op x w' below feed call => (WinHoldsInf.call wf laid h1 h2 below feed call).2.2,
    WinLaid.shows (h1.inv wf laid).laid⟩
  obtain ⟨r, v, c, e, all, total, qlen, le, pos⟩ := id h2
  refine ⟨r, c.held, e, fun k obj kw sh => ?_⟩
  rw [← e] at c
  have rep := WinHoldsInf.rep wf laid h1 c all total qlen le pos sh
  exact ⟨rep.fillBuf_eq, rep.writeSlice_all, fun op below feed => WinHoldsInf.run wf laid h1 c.held h2 below feed kw sh⟩

end

/-- Non-vacuity: a program makes a ring, writes three bytes to it, allocates memory, and reads two of the
bytes back. -/
example : WinWf ⟨.w64, true⟩ (winDemo []) ∧ WinLaid ⟨.w64, true⟩ (winDemo []) ∧
    ∃ (s1 : Vmap.Win) (r0 : Ring) (w : WinWorld) (s : Spec.Win),
    (winDemo []).ringNew ⟨.w64, true⟩ 5000 = .ok (s1, .ok r0) ∧
    WinQueue winTab ⟨.w64, true⟩ 0 (SeqWrite.writeCapacity r0) ((WinWorld.start (winDemo [])).put s1 (.ring r0)) w s ∧
    s.q = [3] ∧ s.spare.length = 65535 := by
  refine ⟨winDemo_wf [], winDemo_laid [], ?_⟩
  obtain ⟨s1, r0, made, hc⟩ : ∃ s1 r0, (winDemo []).ringNew ⟨.w64, true⟩ 5000 = .ok (s1, .ok r0) ∧
      SeqWrite.writeCapacity r0 = 65536 := by
    have h : ((winDemo []).ringNew ⟨.w64, true⟩ 5000).map (·.2) =
      .ok (.ok ⟨68157440, 65536, 0, 0⟩) := by decide +kernel
    cases hx : (winDemo []).ringNew ⟨.w64, true⟩ 5000 with
    | error f => rw [hx] at h; cases h
    | ok x =>
      rw [hx] at h
      injection h with h
      exact ⟨x.1, ⟨68157440, 65536, 0, 0⟩, by rw [← h], rfl⟩
  have bound : 3 < posBound ⟨.w64, true⟩ (SeqWrite.writeCapacity r0) := by rw [hc]; decide
  have key := fun {w s} => C129_ring (tab := winTab) (w := w) (s := s) (winDemo_wf []) (winDemo_laid []) .start
    (by decide) made
  have t0 : WinQueue winTab ⟨.w64, true⟩ 0 (SeqWrite.writeCapacity r0) ((WinWorld.start (winDemo [])).put s1 (.ring r0)) _ _ :=
    .made
  obtain ⟨⟨r, -, -, h⟩, -, k, obj, kw, sh⟩ := key t0
  obtain ⟨-, -, h⟩ := h k obj kw sh
  obtain ⟨-, -, w1, -, call, -⟩ := h (.write [1, 2, 3]) (by
    refine Nat.lt_of_le_of_lt ?_ bound
    simp only [Win.step]; simp; omega)
  have t1 := t0.call (by
    refine Nat.lt_of_le_of_lt ?_ bound
    simp only [Win.step]; simp; omega) call
  obtain ⟨g1, g2⟩ := win_made_ring (tab := winTab) (winDemo_wf []) (winDemo_laid []) .start (by decide) made
  obtain ⟨reach, -⟩ := WinQueue.holds (winDemo_wf []) (winDemo_laid []) g1 g2 t1
  have inv := reach.inv (winDemo_wf []) (winDemo_laid [])
  have sane : WinAllocFits ⟨.w64, true⟩ w1.s.gran ((Options.new.write.setLen (.exact 5000)).offset % w1.s.page)
      (Options.new.write.setLen (.exact 5000)).len := by
    rw [inv.keeps.gran]
    show (0 % w1.s.page + 5000 : Nat) < _
    rw [Nat.zero_mod]; decide
  obtain ⟨s2, x, e, -⟩ := C81_alloc_partial ⟨.w64, true⟩ inv.wf sane
  obtain ⟨w2, st⟩ : ∃ w2, w1.step winTab ⟨.w64, true⟩ (.alloc (Options.new.write.setLen (.exact 5000))) = .ok w2 := by
    simp only [WinWorld.step, e, bind, Except.bind]
    cases x <;> exact ⟨_, rfl⟩
  have t2 := t1.other (op := .alloc (Options.new.write.setLen (.exact 5000))) sane st (fun _ _ _ h => by cases h)
    (fun h => by cases h)
  obtain ⟨⟨r, -, -, h⟩, -, k, obj, kw, sh⟩ := key t2
  obtain ⟨-, -, h⟩ := h k obj kw sh
  have below : ((((⟨List.replicate (SeqWrite.writeCapacity r0) 0, [], 0⟩ : Spec.Win).step (.write [1, 2, 3])).1.step
      (.read 2)).1.total) < posBound ⟨.w64, true⟩ (SeqWrite.writeCapacity r0) := by
    refine Nat.lt_of_le_of_lt ?_ bound
    simp only [Win.step]; simp; omega
  obtain ⟨-, -, w3, -, call, -⟩ := h (.read 2) below
  refine ⟨s1, r0, w3, _, made, t2.call below call, ?_, ?_⟩
  · have h3 : min 3 (SeqWrite.writeCapacity r0) = 3 := by omega
    simp [Win.step, h3]
  · have h3 : min 3 (SeqWrite.writeCapacity r0) = 3 := by omega
    simp [Win.step, h3]
    omega

end Vmap
