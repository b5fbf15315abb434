import Verif.Proofs.WinChain
import Verif.Proofs.WinLines
import Verif.Props.WinCopy
/-
C182: `chain` of two rings, and vectored reads and writes, in whole programs on Windows.
-/
namespace Vmap
open Spec Kernel

section
variable {tab : SysTable} {t : Target} {s0 : Vmap.Win}

/-- C182: a program on Windows makes two `Ring`s, at any two times, and uses them, and does anything else.  In every
memory the process can have, `a.chain(b)` read to its end gives the readable bytes of `a` and then those of `b`, in
pieces of whatever sizes.  Afterwards both are empty, and go on as queues; nothing was done but to call functions of
the two rings. -/
theorem C182_rings (wf : WinWf t s0) (laid : WinLaid t s0) {wa wb w : WinWorld} (ra : WinReach tab t s0 wa)
    (rb : WinReach tab t s0 wb) {ha hb : Nat} (saneA : 2 * (ha + wa.s.gran) < t.lim)
    (saneB : 2 * (hb + wb.s.gran) < t.lim) {s1 s2 : Vmap.Win} {a0 b0 : Ring}
    (madeA : wa.s.ringNew t ha = .ok (s1, .ok a0)) (madeB : wb.s.ringNew t hb = .ok (s2, .ok b0))
    (hij : wa.next ≠ wb.next) {sa sb : Spec.Win}
    (ta : WinQueue tab t wa.next (SeqWrite.writeCapacity a0) (wa.put s1 (.ring a0)) w sa)
    (tb : WinQueue tab t wb.next (SeqWrite.writeCapacity b0) (wb.put s2 (.ring b0)) w sb)
    {sz : Nat → Nat} (hsz : ∀ i, 0 < sz i) {fuel : Nat} (enough : sa.q.length + sb.q.length < fuel) :
    (∃ k obj, Wf t k ∧ WinShows w.s k obj) ∧
    ∃ a b, w.held wa.next = some (.ring a) ∧ w.held wb.next = some (.ring b) ∧ ∀ k obj, Wf t k → WinShows w.s k obj →
      ∃ a' b' d w' sa' sb', readAll (chainRead (fun (r : Ring) m => r.read t k m) (fun (r : Ring) m => r.read t k m)) fuel sz
          (a, b, false) [] = .ok (some ((a', b', d), sa.q ++ sb.q)) ∧
        WinOnlyCalls tab t (fun l => l = wa.next ∨ l = wb.next) w w' ∧
        w'.held wa.next = some (.ring a') ∧ w'.held wb.next = some (.ring b') ∧ WinShows w'.s k obj ∧
        WinQueue tab t wa.next (SeqWrite.writeCapacity a0) (wa.put s1 (.ring a0)) w' sa' ∧
        WinQueue tab t wb.next (SeqWrite.writeCapacity b0) (wb.put s2 (.ring b0)) w' sb' ∧ sa'.q = [] ∧ sb'.q = [] := by
  obtain ⟨g1, g2⟩ := win_made_ring (tab := tab) wf laid ra saneA madeA
  obtain ⟨g3, g4⟩ := win_made_ring (tab := tab) wf laid rb saneB madeB
  obtain ⟨⟨a, heldA, -, -⟩, -, shown⟩ := C129_ring wf laid ra saneA madeA ta
  obtain ⟨⟨b, heldB, -, -⟩, -⟩ := C129_ring wf laid rb saneB madeB tb
  refine ⟨shown, a, b, heldA, heldB, fun k obj kw sh => ?_⟩
  obtain ⟨a', b', d, w', e, c, ⟨sa', ta', ha', qa'⟩, ⟨sb', tb', hb', qb'⟩, sh'⟩ := win_chain hij
    (win_ring_source wf laid g1 g2) (win_ring_source wf laid g3 g4) kw sh ⟨sa, ta, heldA, rfl⟩ ⟨sb, tb, heldB, rfl⟩ hsz enough
  exact ⟨a', b', d, w', sa', sb', e, c, ha', hb', sh', ta', tb', qa', qb'⟩

/-- C182: the same for an `InfiniteRing` followed by a `Ring`. -/
theorem C182_infinite_ring (wf : WinWf t s0) (laid : WinLaid t s0) {wa wb w : WinWorld} (ra : WinReach tab t s0 wa)
    (rb : WinReach tab t s0 wb) {ha hb : Nat} (saneA : 2 * (ha + wa.s.gran) < t.lim)
    (saneB : 2 * (hb + wb.s.gran) < t.lim) {s1 s2 : Vmap.Win} {a0 : InfiniteRing} {b0 : Ring}
    (madeA : wa.s.infNew t ha = .ok (s1, .ok a0)) (madeB : wb.s.ringNew t hb = .ok (s2, .ok b0))
    (hij : wa.next ≠ wb.next) {sa : Lossy} {sb : Spec.Win}
    (ta : WinLossy tab t wa.next (SeqWrite.writeCapacity a0) (wa.put s1 (.inf a0)) w sa)
    (tb : WinQueue tab t wb.next (SeqWrite.writeCapacity b0) (wb.put s2 (.ring b0)) w sb)
    {sz : Nat → Nat} (hsz : ∀ i, 0 < sz i) {fuel : Nat} (enough : sa.q.length + sb.q.length < fuel) :
    (∃ k obj, Wf t k ∧ WinShows w.s k obj) ∧
    ∃ a b, w.held wa.next = some (.inf a) ∧ w.held wb.next = some (.ring b) ∧ ∀ k obj, Wf t k → WinShows w.s k obj →
      ∃ a' b' d w' sa' sb', readAll (chainRead (fun (r : InfiniteRing) m => r.read t k m) (fun (r : Ring) m => r.read t k m))
          fuel sz (a, b, false) [] = .ok (some ((a', b', d), sa.q ++ sb.q)) ∧
        WinOnlyCalls tab t (fun l => l = wa.next ∨ l = wb.next) w w' ∧
        w'.held wa.next = some (.inf a') ∧ w'.held wb.next = some (.ring b') ∧ WinShows w'.s k obj ∧
        WinLossy tab t wa.next (SeqWrite.writeCapacity a0) (wa.put s1 (.inf a0)) w' sa' ∧
        WinQueue tab t wb.next (SeqWrite.writeCapacity b0) (wb.put s2 (.ring b0)) w' sb' ∧ sa'.q = [] ∧ sb'.q = [] := by
  obtain ⟨g1, g2⟩ := win_made_inf (tab := tab) wf laid ra saneA madeA
  obtain ⟨g3, g4⟩ := win_made_ring (tab := tab) wf laid rb saneB madeB
  obtain ⟨⟨a, heldA, -, -⟩, -, shown⟩ := C129_infinite wf laid ra saneA madeA ta
  obtain ⟨⟨b, heldB, -, -⟩, -⟩ := C129_ring wf laid rb saneB madeB tb
  refine ⟨shown, a, b, heldA, heldB, fun k obj kw sh => ?_⟩
  obtain ⟨a', b', d, w', e, c, ⟨sa', ta', ha', qa'⟩, ⟨sb', tb', hb', qb'⟩, sh'⟩ := win_chain hij
    (win_inf_source wf laid g1 g2) (win_ring_source wf laid g3 g4) kw sh ⟨sa, ta, heldA, rfl⟩ ⟨sb, tb, heldB, rfl⟩ hsz enough
  exact ⟨a', b', d, w', sa', sb', e, c, ha', hb', sh', ta', tb', qa', qb'⟩

/-- C182: `read_vectored` on a `Ring` fills only the first slice that is not empty, and `write_vectored` appends only
what fits of the first slice that is not empty. -/
theorem C182_ring_vectored (wf : WinWf t s0) (laid : WinLaid t s0) {w0 w : WinWorld} (reach : WinReach tab t s0 w0)
    {hint : Nat} (sane : 2 * (hint + w0.s.gran) < t.lim) {s1 : Vmap.Win} {r0 : Ring}
    (made : w0.s.ringNew t hint = .ok (s1, .ok r0)) {s : Spec.Win}
    (tr : WinQueue tab t w0.next (SeqWrite.writeCapacity r0) (w0.put s1 (.ring r0)) w s) :
    ∃ r, w.held w0.next = some (.ring r) ∧ ∀ k obj, Wf t k → WinShows w.s k obj →
      (∀ lens m, FirstLen lens m → ∃ r', readVectored (fun (r : Ring) m => r.read t k m) r lens = .ok (r', s.q.take m) ∧
        WinLeft tab t w0.next (SeqWrite.writeCapacity r0) (w0.put s1 (.ring r0)) w k obj r' (s.q.drop m)) ∧
      (∀ bufs b, FirstFull bufs b →
        s.total + min b.length s.spare.length < posBound t (SeqWrite.writeCapacity r0) → ∃ k' r',
        writeVectored (fun bs => r.write t k bs) bufs = .ok (k', r', min b.length s.spare.length) ∧ Wf t k' ∧
        WinLeft tab t w0.next (SeqWrite.writeCapacity r0) (w0.put s1 (.ring r0)) w k' obj r'
          (s.q ++ b.take s.spare.length)) := by
  obtain ⟨g1, g2⟩ := win_made_ring (tab := tab) wf laid reach sane made
  obtain ⟨⟨r, held, -, all⟩, -⟩ := C129_ring wf laid reach sane made tr
  refine ⟨r, held, fun k obj kw sh => ⟨fun lens m first => ?_, fun bufs b first below => ?_⟩⟩
  · obtain ⟨r', e, h⟩ := WinLeft.feeds (w := w) (obj := obj) wf laid g1 g2 kw r s.q ⟨w, s, .refl, held, sh, tr, rfl⟩ m
    exact ⟨r', by rw [readVectored, first_len first]; exact e, h⟩
  · obtain ⟨h1, h2⟩ := WinQueue.holds wf laid g1 g2 tr
    obtain ⟨k', r', w', e, call, hh, kw', sh'⟩ := h2.run (tab := tab) (op := .write b) wf laid h1 held below kw sh
    have tr' := tr.call (op := .write b) below call
    simp only [Ring.exec, bind, Except.bind] at e
    cases hr : r.write t k b with
    | error f => rw [hr] at e; cases e
    | ok x =>
      rw [hr] at e
      obtain ⟨k1, r1, m⟩ := x
      simp only [pure, Except.pure, Win.step, Except.ok.injEq, Prod.mk.injEq, Resp.num.injEq] at e
      obtain ⟨⟨e1, e2⟩, e3⟩ := e
      subst e1 e2 e3
      refine ⟨k1, r1, by rw [writeVectored, first_full first]; exact hr, kw', w', _, .ring .refl rfl call, hh, sh', tr', ?_⟩
      simp only [Win.step]
      congr 1
      rw [List.take_eq_take_iff]; omega

/-- C182: the same for an `InfiniteRing`, which takes the first capacity bytes of that slice and keeps the last capacity
bytes. -/
theorem C182_infinite_vectored (wf : WinWf t s0) (laid : WinLaid t s0) {w0 w : WinWorld} (reach : WinReach tab t s0 w0)
    {hint : Nat} (sane : 2 * (hint + w0.s.gran) < t.lim) {s1 : Vmap.Win} {r0 : InfiniteRing}
    (made : w0.s.infNew t hint = .ok (s1, .ok r0)) {s : Lossy}
    (tr : WinLossy tab t w0.next (SeqWrite.writeCapacity r0) (w0.put s1 (.inf r0)) w s) :
    ∃ r, w.held w0.next = some (.inf r) ∧ ∀ k obj, Wf t k → WinShows w.s k obj →
      (∀ lens m, FirstLen lens m → ∃ r', readVectored (fun (r : InfiniteRing) m => r.read t k m) r lens =
          .ok (r', s.q.take m) ∧
        WinLeftInf tab t w0.next (SeqWrite.writeCapacity r0) (w0.put s1 (.inf r0)) w k obj r' (s.q.drop m)) ∧
      (∀ bufs b, FirstFull bufs b →
        s.total + min b.length (SeqWrite.writeCapacity r0) < posBound t (SeqWrite.writeCapacity r0) → ∃ k' r',
        writeVectored (fun bs => r.write t k bs) bufs = .ok (k', r', min b.length (SeqWrite.writeCapacity r0)) ∧ Wf t k' ∧
        WinLeftInf tab t w0.next (SeqWrite.writeCapacity r0) (w0.put s1 (.inf r0)) w k' obj r'
          (lastN (SeqWrite.writeCapacity r0) (s.q ++ b.take (SeqWrite.writeCapacity r0)))) := by
  obtain ⟨g1, g2⟩ := win_made_inf (tab := tab) wf laid reach sane made
  obtain ⟨⟨r, held, -, all⟩, -⟩ := C129_infinite wf laid reach sane made tr
  refine ⟨r, held, fun k obj kw sh => ⟨fun lens m first => ?_, fun bufs b first below => ?_⟩⟩
  · obtain ⟨r', e, h⟩ := WinLeftInf.feeds (w := w) (obj := obj) wf laid g1 g2 kw r s.q ⟨w, s, .refl, held, sh, tr, rfl⟩ m
    exact ⟨r', by rw [readVectored, first_len first]; exact e, h⟩
  · obtain ⟨h1, h2⟩ := WinLossy.holds wf laid g1 g2 tr
    obtain ⟨hc, -⟩ := win_inf_sink wf laid g1 g2 tr held kw sh b below
    have need : (s.step (.write b)).1.total < posBound t (SeqWrite.writeCapacity r0) := by
      have : (s.step (.write b)).1.total = s.total + min b.length (SeqWrite.writeCapacity r0) := by
        simp [Lossy.step, Lossy.append, hc]
      rw [this]; exact below
    obtain ⟨k', r', w', e, call, hh, kw', sh'⟩ := h2.run (tab := tab) (op := .write b) wf laid h1 held need trivial kw sh
    have tr' := tr.call (op := .write b) need (by simp) trivial call
    simp only [InfiniteRing.exec, bind, Except.bind] at e
    cases hr : r.write t k b with
    | error f => rw [hr] at e; cases e
    | ok x =>
      rw [hr] at e
      obtain ⟨k1, r1, m⟩ := x
      simp only [pure, Except.pure, Lossy.step, Except.ok.injEq, Prod.mk.injEq, Resp.num.injEq, hc] at e
      obtain ⟨⟨e1, e2⟩, e3⟩ := e
      subst e1 e2 e3
      refine ⟨k1, r1, by rw [writeVectored, first_full first]; exact hr, kw', w', _, .inf .refl rfl call, hh, sh', tr', ?_⟩
      simp only [Lossy.step, hc]
      rw [append_q hc]
      congr 2
      rw [List.take_eq_take_iff]; omega

end

/-- Non-vacuity: a program makes two rings, writes three bytes to the first, and reads the chain in pieces of two. -/
example : WinWf ⟨.w64, true⟩ (winDemo []) ∧ WinLaid ⟨.w64, true⟩ (winDemo []) ∧
    ∃ (s1 s2 : Vmap.Win) (a0 b0 : Ring) (w w' : WinWorld) (a a' : Ring) (b b' : Ring) (d : Bool) (k : Kernel) (sa sb : Spec.Win),
    (winDemo []).ringNew ⟨.w64, true⟩ 5000 = .ok (s1, .ok a0) ∧ s1.ringNew ⟨.w64, true⟩ 70000 = .ok (s2, .ok b0) ∧
    WinQueue winTab ⟨.w64, true⟩ 0 (SeqWrite.writeCapacity a0) ((WinWorld.start (winDemo [])).put s1 (.ring a0)) w sa ∧
    WinQueue winTab ⟨.w64, true⟩ 1 (SeqWrite.writeCapacity b0)
      (((WinWorld.start (winDemo [])).put s1 (.ring a0)).put s2 (.ring b0)) w sb ∧
    sa.q = [1, 2, 3] ∧ sb.q = [] ∧ w.held 0 = some (.ring a) ∧ w.held 1 = some (.ring b) ∧
    readAll (chainRead (fun (r : Ring) m => r.read ⟨.w64, true⟩ k m) (fun (r : Ring) m => r.read ⟨.w64, true⟩ k m)) 4
      (fun _ => 2) (a, b, false) [] = .ok (some ((a', b', d), [1, 2, 3])) ∧
    WinOnlyCalls winTab ⟨.w64, true⟩ (fun l => l = 0 ∨ l = 1) w w' := by
  refine ⟨winDemo_wf [], winDemo_laid [], ?_⟩
  obtain ⟨s1, a0, s2, b0, ma, mb, hg, ca, cb⟩ := winDemo_rings
  obtain ⟨g1, g2⟩ := win_made_ring (tab := winTab) (winDemo_wf []) (winDemo_laid []) .start (by decide) ma
  have saneB : 2 * (70000 + ((WinWorld.start (winDemo [])).put s1 (.ring a0)).s.gran) < Target.lim ⟨.w64, true⟩ := by
    show 2 * (70000 + s1.gran) < _
    rw [hg]; decide
  obtain ⟨g3, g4⟩ := win_made_ring (tab := winTab) (winDemo_wf []) (winDemo_laid []) g1 saneB mb
  have t0 : WinQueue winTab ⟨.w64, true⟩ 0 (SeqWrite.writeCapacity a0)
      ((WinWorld.start (winDemo [])).put s1 (.ring a0)) (((WinWorld.start (winDemo [])).put s1 (.ring a0)).put s2 (.ring b0)) _ :=
    .other (op := .newRing 70000) .made saneB
      (by
        have mb' : ((WinWorld.start (winDemo [])).put s1 (.ring a0)).s.ringNew ⟨.w64, true⟩ 70000 = .ok (s2, .ok b0) := mb
        simp only [WinWorld.step, mb', bind, Except.bind]; rfl)
      (fun _ _ _ h => by cases h) (fun h => by cases h)
  have bound : 3 < posBound ⟨.w64, true⟩ (SeqWrite.writeCapacity a0) := by rw [ca]; decide
  obtain ⟨⟨r, -, -, h⟩, -, k, obj, kw, sh⟩ := C129_ring (tab := winTab) (winDemo_wf []) (winDemo_laid []) .start
    (by decide) ma t0
  have need : ((⟨List.replicate (SeqWrite.writeCapacity a0) 0, [], 0⟩ : Spec.Win).step (.write [1, 2, 3])).1.total <
      posBound ⟨.w64, true⟩ (SeqWrite.writeCapacity a0) := by
    refine Nat.lt_of_le_of_lt ?_ bound
    simp only [Win.step]; simp; omega
  obtain ⟨-, -, w1, -, call, -⟩ := (h k obj kw sh).2.2 (.write [1, 2, 3]) need
  have t1 := t0.call need call
  obtain ⟨t2, -⟩ := Spec.WinQueue.keep (j := 0) (i := 1) (winDemo_wf []) (winDemo_laid []) g3 g4 (by decide) .made rfl
    (.ring .refl rfl call)
  have hq : ((⟨List.replicate (SeqWrite.writeCapacity a0) 0, [], 0⟩ : Spec.Win).step (.write [1, 2, 3])).1.q = [1, 2, 3] := by
    simp only [Win.step, List.nil_append, List.length_replicate, ca]; rfl
  obtain ⟨⟨k, obj, kw, sh⟩, a, b, heldA, heldB, res⟩ := C182_rings (winDemo_wf []) (winDemo_laid []) .start g1 (by decide)
    saneB ma mb (by show (0 : Nat) ≠ 1; decide) t1 t2 (sz := fun _ => 2) (fun _ => by decide) (fuel := 4) (by rw [hq]; simp)
  obtain ⟨a', b', d, w', sa', sb', e, c, -⟩ := res k obj kw sh
  refine ⟨s1, s2, a0, b0, w1, w', a, a', b, b', d, k, _, _, ma, mb, t1, t2, hq, rfl, heldA, heldB, ?_, c⟩
  rw [e, hq]; rfl

/-- Non-vacuity: the same with an infinite ring first. -/
example : WinWf ⟨.w64, true⟩ (winDemo []) ∧ WinLaid ⟨.w64, true⟩ (winDemo []) ∧
    ∃ (s1 s2 : Vmap.Win) (a0 : InfiniteRing) (b0 : Ring) (w w' : WinWorld) (a a' : InfiniteRing) (b b' : Ring) (d : Bool) (k : Kernel) (sa : Lossy) (sb : Spec.Win),
    (winDemo []).infNew ⟨.w64, true⟩ 5000 = .ok (s1, .ok a0) ∧ s1.ringNew ⟨.w64, true⟩ 70000 = .ok (s2, .ok b0) ∧
    WinLossy winTab ⟨.w64, true⟩ 0 (SeqWrite.writeCapacity a0) ((WinWorld.start (winDemo [])).put s1 (.inf a0)) w sa ∧
    WinQueue winTab ⟨.w64, true⟩ 1 (SeqWrite.writeCapacity b0)
      (((WinWorld.start (winDemo [])).put s1 (.inf a0)).put s2 (.ring b0)) w sb ∧
    sa.q = [1, 2, 3] ∧ sb.q = [] ∧ w.held 0 = some (.inf a) ∧ w.held 1 = some (.ring b) ∧
    readAll (chainRead (fun (r : InfiniteRing) m => r.read ⟨.w64, true⟩ k m) (fun (r : Ring) m => r.read ⟨.w64, true⟩ k m)) 4
      (fun _ => 2) (a, b, false) [] = .ok (some ((a', b', d), [1, 2, 3])) ∧
    WinOnlyCalls winTab ⟨.w64, true⟩ (fun l => l = 0 ∨ l = 1) w w' := by
  refine ⟨winDemo_wf [], winDemo_laid [], ?_⟩
  obtain ⟨s1, a0, s2, b0, ma, mb, hg, ca, cb⟩ := winDemo_inf_ring
  obtain ⟨g1, g2⟩ := win_made_inf (tab := winTab) (winDemo_wf []) (winDemo_laid []) .start (by decide) ma
  have saneB : 2 * (70000 + ((WinWorld.start (winDemo [])).put s1 (.inf a0)).s.gran) < Target.lim ⟨.w64, true⟩ := by
    show 2 * (70000 + s1.gran) < _
    rw [hg]; decide
  obtain ⟨g3, g4⟩ := win_made_ring (tab := winTab) (winDemo_wf []) (winDemo_laid []) g1 saneB mb
  have t0 : WinLossy winTab ⟨.w64, true⟩ 0 (SeqWrite.writeCapacity a0)
      ((WinWorld.start (winDemo [])).put s1 (.inf a0)) (((WinWorld.start (winDemo [])).put s1 (.inf a0)).put s2 (.ring b0)) _ :=
    .other (op := .newRing 70000) .made saneB
      (by
        have mb' : ((WinWorld.start (winDemo [])).put s1 (.inf a0)).s.ringNew ⟨.w64, true⟩ 70000 = .ok (s2, .ok b0) := mb
        simp only [WinWorld.step, mb', bind, Except.bind]; rfl)
      (fun _ _ _ h => by cases h) (fun h => by cases h)
  have bound : 3 < posBound ⟨.w64, true⟩ (SeqWrite.writeCapacity a0) := by rw [ca]; decide
  obtain ⟨⟨r, -, -, h⟩, -, k, obj, kw, sh⟩ := C129_infinite (tab := winTab) (winDemo_wf []) (winDemo_laid []) .start
    (by decide) ma t0
  have hs : ((⟨List.replicate (SeqWrite.writeCapacity a0) 0, [], 0⟩ : Lossy).step (.write [1, 2, 3])).1.q = [1, 2, 3] ∧
      ((⟨List.replicate (SeqWrite.writeCapacity a0) 0, [], 0⟩ : Lossy).step (.write [1, 2, 3])).1.total = 3 := by
    have h3 : 3 ≤ SeqWrite.writeCapacity a0 := by rw [ca]; decide
    generalize SeqWrite.writeCapacity a0 = c at h3
    have hm : min 3 c = 3 := Nat.min_eq_left h3
    simp [Lossy.step, Lossy.all, Lossy.append, hm]
    rw [lastN, List.drop_drop, List.length_append, List.length_replicate]
    have : c + [(1 : Byte), 2, 3].length - c + (c - 3) = c := by simp only [List.length_cons, List.length_nil]; omega
    rw [this, List.drop_append_of_le_length (by simp), List.drop_eq_nil_of_le (by simp), List.nil_append]
  have need := Nat.lt_of_le_of_lt (Nat.le_of_eq hs.2) bound
  obtain ⟨-, -, w1, -, call, -⟩ := (h k obj kw sh).2.2 (.write [1, 2, 3]) need trivial
  have t1 := t0.call need (by simp) trivial call
  obtain ⟨t2, -⟩ := Spec.WinQueue.keep (j := 0) (i := 1) (winDemo_wf []) (winDemo_laid []) g3 g4 (by decide) .made rfl
    (.inf .refl rfl call)
  have hq := hs.1
  obtain ⟨⟨k, obj, kw, sh⟩, a, b, heldA, heldB, res⟩ := C182_infinite_ring (winDemo_wf []) (winDemo_laid []) .start g1 (by decide)
    saneB ma mb (by show (0 : Nat) ≠ 1; decide) t1 t2 (sz := fun _ => 2) (fun _ => by decide) (fuel := 4) (by rw [hq]; simp)
  obtain ⟨a', b', d, w', sa', sb', e, c, -⟩ := res k obj kw sh
  refine ⟨s1, s2, a0, b0, w1, w', a, a', b, b', d, k, _, _, ma, mb, t1, t2, hq, rfl, heldA, heldB, ?_, c⟩
  rw [e, hq]; rfl

/-- Non-vacuity: `write_vectored` of an empty slice and two others to a new ring. -/
example : WinWf ⟨.w64, true⟩ (winDemo []) ∧ WinLaid ⟨.w64, true⟩ (winDemo []) ∧ FirstFull [[], [9], [8, 7]] [9] ∧
    FirstLen [0, 1, 2] 1 ∧
    ∃ (s1 : Vmap.Win) (r0 r r' : Ring) (k k' : Kernel),
    (winDemo []).ringNew ⟨.w64, true⟩ 5000 = .ok (s1, .ok r0) ∧
    ((WinWorld.start (winDemo [])).put s1 (.ring r0)).held 0 = some (.ring r) ∧
    writeVectored (fun bs => r.write ⟨.w64, true⟩ k bs) [[], [9], [8, 7]] = .ok (k', r', 1) := by
  refine ⟨winDemo_wf [], winDemo_laid [], .later (.here (by simp)), .later (.here (by simp)), ?_⟩
  obtain ⟨s1, r0, made, hc⟩ := winDemo_ring
  have bound : 1 < posBound ⟨.w64, true⟩ (SeqWrite.writeCapacity r0) := by rw [hc]; decide
  have h1 : 1 ≤ SeqWrite.writeCapacity r0 := by rw [hc]; decide
  obtain ⟨-, -, k, obj, kw, sh⟩ := C129_ring (tab := winTab) (winDemo_wf []) (winDemo_laid []) .start
    (by decide) made .made
  obtain ⟨r, held, all⟩ := C182_ring_vectored (tab := winTab) (winDemo_wf []) (winDemo_laid []) .start (by decide) made .made
  have hm : min [(9 : Byte)].length (List.replicate (SeqWrite.writeCapacity r0) (0 : Byte)).length = 1 := by
    rw [List.length_replicate]; exact Nat.min_eq_left h1
  obtain ⟨k', r', e, -⟩ := (all k obj kw sh).2 [[], [9], [8, 7]] [9] (.later (.here (by simp))) (by
    rw [hm]; simp only; omega)
  rw [hm] at e
  exact ⟨s1, r0, r, r', k, k', made, held, e⟩

/-- Non-vacuity: the same for a new infinite ring. -/
example : WinWf ⟨.w64, true⟩ (winDemo []) ∧ WinLaid ⟨.w64, true⟩ (winDemo []) ∧
    ∃ (s1 : Vmap.Win) (r0 r r' : InfiniteRing) (k k' : Kernel),
    (winDemo []).infNew ⟨.w64, true⟩ 5000 = .ok (s1, .ok r0) ∧
    ((WinWorld.start (winDemo [])).put s1 (.inf r0)).held 0 = some (.inf r) ∧
    writeVectored (fun bs => r.write ⟨.w64, true⟩ k bs) [[], [9], [8, 7]] = .ok (k', r', 1) := by
  refine ⟨winDemo_wf [], winDemo_laid [], ?_⟩
  obtain ⟨s1, a0, -, -, made, -, -, ca, -⟩ := winDemo_infs
  have bound : 1 < posBound ⟨.w64, true⟩ (SeqWrite.writeCapacity a0) := by rw [ca]; decide
  have h1 : 1 ≤ SeqWrite.writeCapacity a0 := by rw [ca]; decide
  obtain ⟨-, -, k, obj, kw, sh⟩ := C129_infinite (tab := winTab) (winDemo_wf []) (winDemo_laid []) .start
    (by decide) made .made
  obtain ⟨r, held, all⟩ := C182_infinite_vectored (tab := winTab) (winDemo_wf []) (winDemo_laid []) .start (by decide) made
    .made
  have hm : min [(9 : Byte)].length (SeqWrite.writeCapacity a0) = 1 := Nat.min_eq_left h1
  obtain ⟨k', r', e, -⟩ := (all k obj kw sh).2 [[], [9], [8, 7]] [9] (.later (.here (by simp))) (by
    rw [hm]; simp only; omega)
  rw [hm] at e
  exact ⟨s1, a0, r, r', k, k', made, held, e⟩

end Vmap
