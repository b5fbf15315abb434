import Verif.Proofs.WinStd
import Verif.Props.WinCopy
/-
C180: `read_exact`, `read_to_end` and `write_all` on rings in whole programs on Windows.
-/
namespace Vmap
open Spec Kernel

section
variable {tab : SysTable} {t : Target} {s0 : Vmap.Win}

/-- C180: a program on Windows makes a `Ring`, uses it, and does anything else; `s` is what the ring should hold.
In every memory the process can have, `read_exact` of `n` bytes hands out the first `n` readable bytes, with
`Ok` if there are that many, and `UnexpectedEof` if not; `read_to_end` hands out all readable bytes; `write_all`
appends what there is room for, with `Ok` if that is everything, and `WriteZero` if not.  Afterwards the ring holds
the rest, and goes on as a queue.  Nothing is done but to call functions of the ring. -/
theorem C180_ring (wf : WinWf t s0) (laid : WinLaid t s0) {w0 w : WinWorld} (reach : WinReach tab t s0 w0) {hint : Nat}
    (sane : 2 * (hint + w0.s.gran) < t.lim) {s1 : Vmap.Win} {r0 : Ring} (made : w0.s.ringNew t hint = .ok (s1, .ok r0))
    {s : Spec.Win} (tr : WinQueue tab t w0.next (SeqWrite.writeCapacity r0) (w0.put s1 (.ring r0)) w s) :
    ∃ r, w.held w0.next = some (.ring r) ∧ ∀ k obj, Wf t k → WinShows w.s k obj →
      (∀ n, ∃ r' w' s', r.readExact t k n [] = .ok (r', s.q.take n,
          if n ≤ s.q.length then .ok () else .error (.ofKind .unexpectedEof)) ∧
        WinOnlyCalls tab t (· = w0.next) w w' ∧ w'.held w0.next = some (.ring r') ∧ WinShows w'.s k obj ∧
        WinQueue tab t w0.next (SeqWrite.writeCapacity r0) (w0.put s1 (.ring r0)) w' s' ∧ s'.q = s.q.drop n) ∧
      (∀ sz fuel, (∀ i, 0 < sz i) → s.q.length < fuel → ∃ r' w' s',
        Ring.readToEnd t k fuel sz r [] = .ok (some (r', s.q)) ∧
        WinOnlyCalls tab t (· = w0.next) w w' ∧ w'.held w0.next = some (.ring r') ∧ WinShows w'.s k obj ∧
        WinQueue tab t w0.next (SeqWrite.writeCapacity r0) (w0.put s1 (.ring r0)) w' s' ∧ s'.q = []) ∧
      (∀ bs, s.total + min bs.length s.spare.length < posBound t (SeqWrite.writeCapacity r0) → ∃ k' r' w' s',
        r.writeAll t k bs = .ok ((k', r'), if bs.length ≤ s.spare.length then .ok () else .error (.ofKind .writeZero)) ∧
        WinOnlyCalls tab t (· = w0.next) w w' ∧ w'.held w0.next = some (.ring r') ∧ Wf t k' ∧ WinShows w'.s k' obj ∧
        WinQueue tab t w0.next (SeqWrite.writeCapacity r0) (w0.put s1 (.ring r0)) w' s' ∧
        s'.q = s.q ++ bs.take s.spare.length) := by
  obtain ⟨g1, g2⟩ := win_made_ring (tab := tab) wf laid reach sane made
  obtain ⟨⟨r, held, -, -⟩, -⟩ := C129_ring wf laid reach sane made tr
  have src := win_ring_source (tab := tab) wf laid g1 g2
  refine ⟨r, held, fun k obj kw sh => ⟨fun n => ?_, fun sz fuel hsz hl => ?_, fun bs below => ?_⟩⟩
  · obtain ⟨r', w', e, c, ⟨s', tr', held', q'⟩, sh'⟩ := win_readExact src kw (f := fun r n acc => Ring.readExact t k r n acc)
      (fun r n acc => by
        show Ring.readExact t k r n acc = _
        rw [Ring.readExact]
        simp only [dite_eq_ite]
        cases Ring.read t k r n <;> rfl) n [] ⟨s, tr, held, rfl⟩ sh
    exact ⟨r', w', s', e, c, held', sh', tr', q'⟩
  · obtain ⟨r', w', e, c, ⟨s', tr', held', q'⟩, sh'⟩ := win_readToEnd src kw (f := Ring.readToEnd t k)
      (fun fuel sz r acc => by
        simp only [Ring.readToEnd, bind, Except.bind, pure, Except.pure]
        cases Ring.read t k r (sz 0) <;> rfl) fuel sz [] hsz hl ⟨s, tr, held, rfl⟩ sh
    exact ⟨r', w', s', e, c, held', sh', tr', q'⟩
  · obtain ⟨b', k', w', e, c, tr', held', kw', sh'⟩ := win_ring_sink wf laid g1 g2 tr held kw sh bs below
    refine ⟨k', b', w', _, e, c, held', kw', sh', tr', ?_⟩
    simp only [Win.step]
    congr 1
    rw [Nat.min_def]
    split
    · rename_i h; rw [List.take_of_length_le (Nat.le_refl _), List.take_of_length_le h]
    · rfl

/-- C180 for an `InfiniteRing`: `write_all` is always `Ok`, and keeps the last capacity bytes. -/
theorem C180_infinite (wf : WinWf t s0) (laid : WinLaid t s0) {w0 w : WinWorld} (reach : WinReach tab t s0 w0) {hint : Nat}
    (sane : 2 * (hint + w0.s.gran) < t.lim) {s1 : Vmap.Win} {r0 : InfiniteRing} (made : w0.s.infNew t hint = .ok (s1, .ok r0))
    {s : Lossy} (tr : WinLossy tab t w0.next (SeqWrite.writeCapacity r0) (w0.put s1 (.inf r0)) w s) :
    ∃ r, w.held w0.next = some (.inf r) ∧ ∀ k obj, Wf t k → WinShows w.s k obj →
      (∀ n, ∃ r' w' s', r.readExact t k n [] = .ok (r', s.q.take n,
          if n ≤ s.q.length then .ok () else .error (.ofKind .unexpectedEof)) ∧
        WinOnlyCalls tab t (· = w0.next) w w' ∧ w'.held w0.next = some (.inf r') ∧ WinShows w'.s k obj ∧
        WinLossy tab t w0.next (SeqWrite.writeCapacity r0) (w0.put s1 (.inf r0)) w' s' ∧ s'.q = s.q.drop n) ∧
      (∀ sz fuel, (∀ i, 0 < sz i) → s.q.length < fuel → ∃ r' w' s',
        InfiniteRing.readToEnd t k fuel sz r [] = .ok (some (r', s.q)) ∧
        WinOnlyCalls tab t (· = w0.next) w w' ∧ w'.held w0.next = some (.inf r') ∧ WinShows w'.s k obj ∧
        WinLossy tab t w0.next (SeqWrite.writeCapacity r0) (w0.put s1 (.inf r0)) w' s' ∧ s'.q = []) ∧
      (∀ bs, s.total + min bs.length (SeqWrite.writeCapacity r0) < posBound t (SeqWrite.writeCapacity r0) → ∃ k' r' w' s',
        r.writeAll t k bs = .ok (k', r') ∧
        WinOnlyCalls tab t (· = w0.next) w w' ∧ w'.held w0.next = some (.inf r') ∧ Wf t k' ∧ WinShows w'.s k' obj ∧
        WinLossy tab t w0.next (SeqWrite.writeCapacity r0) (w0.put s1 (.inf r0)) w' s' ∧
        s'.q = lastN (SeqWrite.writeCapacity r0) (s.q ++ bs)) := by
  obtain ⟨g1, g2⟩ := win_made_inf (tab := tab) wf laid reach sane made
  obtain ⟨⟨r, held, -, -⟩, -⟩ := C129_infinite wf laid reach sane made tr
  have src := win_inf_source (tab := tab) wf laid g1 g2
  refine ⟨r, held, fun k obj kw sh => ⟨fun n => ?_, fun sz fuel hsz hl => ?_, fun bs below => ?_⟩⟩
  · obtain ⟨r', w', e, c, ⟨s', tr', held', q'⟩, sh'⟩ := win_readExact src kw
      (f := fun r n acc => InfiniteRing.readExact t k r n acc)
      (fun r n acc => by
        show InfiniteRing.readExact t k r n acc = _
        rw [InfiniteRing.readExact]
        simp only [dite_eq_ite]
        cases InfiniteRing.read t k r n <;> rfl) n [] ⟨s, tr, held, rfl⟩ sh
    exact ⟨r', w', s', e, c, held', sh', tr', q'⟩
  · obtain ⟨r', w', e, c, ⟨s', tr', held', q'⟩, sh'⟩ := win_readToEnd src kw (f := InfiniteRing.readToEnd t k)
      (fun fuel sz r acc => by
        simp only [InfiniteRing.readToEnd, bind, Except.bind, pure, Except.pure]
        cases InfiniteRing.read t k r (sz 0) <;> rfl) fuel sz [] hsz hl ⟨s, tr, held, rfl⟩ sh
    exact ⟨r', w', s', e, c, held', sh', tr', q'⟩
  · obtain ⟨hc, b', k', w', e, c, tr', held', kw', sh'⟩ := win_inf_sink wf laid g1 g2 tr held kw sh bs below
    refine ⟨k', b', w', _, ?_, c, held', kw', sh', tr', ?_⟩
    · simp only [InfiniteRing.takeAll, bind, Except.bind, pure, Except.pure] at e
      cases h : r.writeAll t k bs with
      | error f => rw [h] at e; cases e
      | ok x =>
        rw [h] at e
        simp only [Except.ok.injEq, Prod.mk.injEq, and_true] at e
        rw [← e.1, ← e.2]
    · rw [append_q hc, lastN_lastN]

/-- C180: the `bytes` view of a `Ring` (`copy_to_slice`, `put_slice`): they do what they are asked for exactly when
there are enough readable bytes, or enough room; otherwise they panic. -/
theorem C180_slices (wf : WinWf t s0) (laid : WinLaid t s0) {w0 w : WinWorld} (reach : WinReach tab t s0 w0) {hint : Nat}
    (sane : 2 * (hint + w0.s.gran) < t.lim) {s1 : Vmap.Win} {r0 : Ring} (made : w0.s.ringNew t hint = .ok (s1, .ok r0))
    {s : Spec.Win} (tr : WinQueue tab t w0.next (SeqWrite.writeCapacity r0) (w0.put s1 (.ring r0)) w s) :
    ∃ r, w.held w0.next = some (.ring r) ∧ ∀ k obj, Wf t k → WinShows w.s k obj → ∀ fuel,
      (∀ n, n ≤ s.q.length → ∃ r' w' s', r.copyToSlice t k (fuel + 1) n = .ok (some (r', s.q.take n)) ∧
        WinOnlyCalls tab t (· = w0.next) w w' ∧ w'.held w0.next = some (.ring r') ∧ WinShows w'.s k obj ∧
        WinQueue tab t w0.next (SeqWrite.writeCapacity r0) (w0.put s1 (.ring r0)) w' s' ∧ s'.q = s.q.drop n) ∧
      (∀ n, s.q.length < n → r.copyToSlice t k (fuel + 1) n = .error .panic) ∧
      (∀ bs, bs.length ≤ s.spare.length → s.total + bs.length < posBound t (SeqWrite.writeCapacity r0) → ∃ k' r' w' s',
        Ring.putSlice t (fuel + 1) k r bs = .ok (some (k', r')) ∧
        WinOnlyCalls tab t (· = w0.next) w w' ∧ w'.held w0.next = some (.ring r') ∧ Wf t k' ∧ WinShows w'.s k' obj ∧
        WinQueue tab t w0.next (SeqWrite.writeCapacity r0) (w0.put s1 (.ring r0)) w' s' ∧ s'.q = s.q ++ bs) ∧
      (∀ bs, s.spare.length < bs.length → Ring.putSlice t (fuel + 1) k r bs = .error .panic) := by
  obtain ⟨g1, g2⟩ := win_made_ring (tab := tab) wf laid reach sane made
  obtain ⟨h1, h2⟩ := WinQueue.holds wf laid g1 g2 tr
  obtain ⟨r, v, c, e, all, total, qlen, pos⟩ := id h2
  refine ⟨r, c.held, fun k obj kw sh fuel => ?_⟩
  rw [← e] at c
  have rep := WinHolds.rep wf laid h1 c all total qlen pos sh
  have hlen := rep.len_eq
  have hlt := rep.len_lt
  refine ⟨fun n hn => ?_, fun n hn => ?_, fun bs hb below => ?_, fun bs hb => ?_⟩
  · have below : (s.step (.consume n)).1.total < posBound t (SeqWrite.writeCapacity r0) := by
      have := pos.below
      rw [total, e] at this
      exact this
    obtain ⟨k', r', w', ex, call, hh, -, sh'⟩ := h2.run (tab := tab) (op := .consume n) wf laid h1 c.held below kw sh
    have tr' := tr.call (op := .consume n) below call
    simp only [Ring.exec, bind, Except.bind, rep.consume_eq, pure, Except.pure, Except.ok.injEq, Prod.mk.injEq] at ex
    obtain ⟨⟨rfl, rfl⟩, -⟩ := ex
    cases n with
    | zero =>
      refine ⟨r, w, s, ?_, .refl, c.held, sh, tr, rfl⟩
      simp [Ring.copyToSlice, Ring.remaining, rep.readLen_eq, bind, Except.bind, Ring.copyLoop]
    | succ n =>
      refine ⟨_, w', _, ?_, .ring .refl rfl call, hh, sh', tr', rfl⟩
      have hmin : min s.q.length (n + 1) = n + 1 := by omega
      have hc : r.chunk t k = .ok s.q := rep.fillBuf_eq
      simp only [Ring.copyToSlice, Ring.remaining, rep.readLen_eq, bind, Except.bind]
      rw [if_neg (by omega)]
      simp only [Ring.copyLoop, hc, bind, Except.bind, hmin, Ring.advance, rep.consume_eq, Nat.sub_self, List.nil_append]
  · simp only [Ring.copyToSlice, Ring.remaining, rep.readLen_eq, bind, Except.bind]
    rw [if_pos hn]; rfl
  · have hm : min bs.length s.spare.length = bs.length := Nat.min_eq_left hb
    have hm' : min s.spare.length bs.length = bs.length := Nat.min_eq_right hb
    have need : (s.step (.write bs)).1.total < posBound t (SeqWrite.writeCapacity r0) := by
      simp only [Win.step, hm]; exact below
    obtain ⟨k', r', w', ex, call, hh, kw', sh'⟩ := h2.run (tab := tab) (op := .write bs) wf laid h1 c.held need kw sh
    have tr' := tr.call (op := .write bs) need call
    have hq : (s.step (.write bs)).1.q = s.q ++ bs := by simp only [Win.step, hm, List.take_length]
    have hc : r.chunkMut t = .ok (r.ptr + r.wpos % r.len, s.spare.length) := by
      rw [Ring.chunkMut, rep.asWriteSlice_eq, Nat.min_eq_left (by simp only [Target.usizeMax]; omega)]
    simp only [Ring.putSlice, Ring.remainingMut, rep.writeLen_eq, bind, Except.bind]
    rw [if_neg (by omega)]
    cases bs with
    | nil => exact ⟨k, r, w, s, by simp [Ring.putLoop], .refl, c.held, kw, sh, tr, by simp⟩
    | cons b bs =>
      refine ⟨k', r', w', _, ?_, .ring .refl rfl call, hh, kw', sh', tr', hq⟩
      simp only [Ring.exec, Ring.write, writeInto, rep.asWriteSlice_eq, bind, Except.bind, hm', Nat.lt_irrefl, if_false,
        List.take_length, pure, Except.pure] at ex
      simp only [Ring.putLoop, hc, bind, Except.bind, hm', List.take_length, Ring.advanceMut,
        List.drop_length]
      cases hs : k.storeN (r.ptr + r.wpos % r.len) (b :: bs) with
      | error f => rw [hs] at ex; cases ex
      | ok k1 =>
        rw [hs] at ex
        simp only at ex ⊢
        have hf : SeqWrite.feed t r (b :: bs).length = r.feed t (b :: bs).length := rfl
        rw [hf] at ex
        cases h2 : r.feed t (b :: bs).length with
        | error f => rw [h2] at ex; cases ex
        | ok r1 =>
          rw [h2] at ex
          simp only [Except.ok.injEq, Prod.mk.injEq] at ex
          rw [ex.1.1, ex.1.2]
  · simp only [Ring.putSlice, Ring.remainingMut, rep.writeLen_eq, bind, Except.bind]
    rw [if_pos hb]; rfl

end

/-- Non-vacuity: a ring into which three bytes were written; `read_exact` of five hands out the three, and fails;
`copy_to_slice` of two hands out two. -/
example : WinWf ⟨.w64, true⟩ (winDemo []) ∧ WinLaid ⟨.w64, true⟩ (winDemo []) ∧
    ∃ (s1 : Vmap.Win) (r0 r r' r'' : Ring) (w : WinWorld) (s : Spec.Win) (k : Kernel),
    (winDemo []).ringNew ⟨.w64, true⟩ 5000 = .ok (s1, .ok r0) ∧
    WinQueue winTab ⟨.w64, true⟩ 0 (SeqWrite.writeCapacity r0) ((WinWorld.start (winDemo [])).put s1 (.ring r0)) w s ∧
    s.q = [1, 2, 3] ∧ w.held 0 = some (.ring r) ∧
    r.readExact ⟨.w64, true⟩ k 5 [] = .ok (r', [1, 2, 3], .error (.ofKind .unexpectedEof)) ∧
    r.copyToSlice ⟨.w64, true⟩ k 1 2 = .ok (some (r'', [1, 2])) := by
  refine ⟨winDemo_wf [], winDemo_laid [], ?_⟩
  obtain ⟨s1, r0, made, hc⟩ := winDemo_ring
  have bound : 3 < posBound ⟨.w64, true⟩ (SeqWrite.writeCapacity r0) := by rw [hc]; decide
  obtain ⟨⟨r, -, -, h⟩, -, k, obj, kw, sh⟩ := C129_ring (tab := winTab) (winDemo_wf []) (winDemo_laid []) .start
    (by decide) made .made
  have need : ((⟨List.replicate (SeqWrite.writeCapacity r0) 0, [], 0⟩ : Spec.Win).step (.write [1, 2, 3])).1.total <
      posBound ⟨.w64, true⟩ (SeqWrite.writeCapacity r0) := by
    refine Nat.lt_of_le_of_lt ?_ bound
    simp only [Win.step]; simp; omega
  have hq : ((⟨List.replicate (SeqWrite.writeCapacity r0) 0, [], 0⟩ : Spec.Win).step (.write [1, 2, 3])).1.q = [1, 2, 3] := by
    simp only [Win.step, List.nil_append, List.length_replicate, hc]; rfl
  obtain ⟨k1, -, w1, -, call, -, kw1, sh1⟩ := (h k obj kw sh).2.2 (.write [1, 2, 3]) need
  have t1 := Spec.WinQueue.call .made need call
  obtain ⟨r1, held1, all⟩ := C180_ring (winDemo_wf []) (winDemo_laid []) .start (by decide) made t1
  obtain ⟨r2, -, -, e, -⟩ := (all k1 obj kw1 sh1).1 5
  obtain ⟨r3, held3, all3⟩ := C180_slices (winDemo_wf []) (winDemo_laid []) .start (by decide) made t1
  rw [held1] at held3; injection held3 with held3; injection held3 with held3; subst held3
  obtain ⟨r4, -, -, e4, -⟩ := (all3 k1 obj kw1 sh1 0).1 2 (by rw [hq]; decide)
  refine ⟨s1, r0, r1, r2, r4, w1, _, k1, made, t1, hq, held1, ?_, ?_⟩
  · rw [e, hq]; rfl
  · rw [e4, hq]; rfl

/-- Non-vacuity: the same for an infinite ring. -/
example : WinWf ⟨.w64, true⟩ (winDemo []) ∧ WinLaid ⟨.w64, true⟩ (winDemo []) ∧
    ∃ (s1 : Vmap.Win) (r0 r r' : InfiniteRing) (w : WinWorld) (s : Lossy) (k : Kernel),
    (winDemo []).infNew ⟨.w64, true⟩ 5000 = .ok (s1, .ok r0) ∧
    WinLossy winTab ⟨.w64, true⟩ 0 (SeqWrite.writeCapacity r0) ((WinWorld.start (winDemo [])).put s1 (.inf r0)) w s ∧
    s.q = [1, 2, 3] ∧ w.held 0 = some (.inf r) ∧
    r.readExact ⟨.w64, true⟩ k 2 [] = .ok (r', [1, 2], .ok ()) := by
  refine ⟨winDemo_wf [], winDemo_laid [], ?_⟩
  obtain ⟨s1, a0, -, -, made, -, -, ca, -⟩ := winDemo_infs
  have bound : 3 < posBound ⟨.w64, true⟩ (SeqWrite.writeCapacity a0) := by rw [ca]; decide
  obtain ⟨⟨r, -, -, h⟩, -, k, obj, kw, sh⟩ := C129_infinite (tab := winTab) (winDemo_wf []) (winDemo_laid []) .start
    (by decide) made .made
  have hs : ((⟨List.replicate (SeqWrite.writeCapacity a0) 0, [], 0⟩ : Lossy).step (.write [1, 2, 3])).1.q = [1, 2, 3] ∧
      ((⟨List.replicate (SeqWrite.writeCapacity a0) 0, [], 0⟩ : Lossy).step (.write [1, 2, 3])).1.total = 3 := by
    have h3 : 3 ≤ SeqWrite.writeCapacity a0 := by rw [ca]; decide
    generalize SeqWrite.writeCapacity a0 = c at h3
    have hm : min 3 c = 3 := Nat.min_eq_left h3
    simp [Lossy.step, Lossy.all, Lossy.append, hm]
    rw [lastN, List.drop_drop, List.length_append, List.length_replicate]
    have : c + [(1 : Byte), 2, 3].length - c + (c - 3) = c := by simp only [List.length_cons, List.length_nil]; omega
    rw [this, List.drop_append_of_le_length (by simp), List.drop_eq_nil_of_le (by simp), List.nil_append]
  have need := Nat.lt_of_le_of_lt (Nat.le_of_eq hs.2) bound
  obtain ⟨k1, -, w1, -, call, -, kw1, sh1⟩ := (h k obj kw sh).2.2 (.write [1, 2, 3]) need trivial
  have t1 := Spec.WinLossy.call .made need (by simp) trivial call
  obtain ⟨r1, held1, all⟩ := C180_infinite (winDemo_wf []) (winDemo_laid []) .start (by decide) made t1
  obtain ⟨r2, -, -, e, -⟩ := (all k1 obj kw1 sh1).1 2
  refine ⟨s1, a0, r1, r2, w1, _, k1, made, t1, hs.1, held1, ?_⟩
  rw [e, hs.1]; rfl

end Vmap
