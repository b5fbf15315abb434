import Verif.Spec.WinLines
import Verif.Proofs.WinStd
import Verif.Proofs.Lines
import Verif.Proofs.RingAdapt
/-
Lemmas for C181: `take`, `bytes`, `split`, `lines` and `read_line` on rings in whole programs on Windows.
-/
namespace Vmap
open Spec Kernel

section
variable {tab : SysTable} {t : Target} {s0 : Vmap.Win} {wa : WinWorld} {i cap : Nat} {k : Kernel} {obj : Nat → Obj}
  {w : WinWorld}

theorem Spec.WinLeft.feeds (wf : WinWf t s0) (laid : WinLaid t s0) (reach : WinReach tab t s0 wa)
    (start : WinHolds t wa i cap ⟨List.replicate cap 0, [], 0⟩) (kw : Wf t k) :
    Feeds (fun (r : Ring) m => r.read t k m) (WinLeft tab t i cap wa w k obj) := by
  rintro r q ⟨w', s, c, held, sh, tr, hq⟩ n
  obtain ⟨a', w2, e, c2, ⟨s2, tr2, held2, q2⟩, sh2⟩ := (win_ring_source wf laid reach start).read ⟨s, tr, held, hq⟩ kw sh n
  exact ⟨a', e, w2, s2, c.trans c2, held2, sh2, tr2, q2⟩

theorem Spec.WinLeftInf.feeds (wf : WinWf t s0) (laid : WinLaid t s0) (reach : WinReach tab t s0 wa)
    (start : WinHoldsInf t wa i cap ⟨List.replicate cap 0, [], 0⟩) (kw : Wf t k) :
    Feeds (fun (r : InfiniteRing) m => r.read t k m) (WinLeftInf tab t i cap wa w k obj) := by
  rintro r q ⟨w', s, c, held, sh, tr, hq⟩ n
  obtain ⟨a', w2, e, c2, ⟨s2, tr2, held2, q2⟩, sh2⟩ := (win_inf_source wf laid reach start).read ⟨s, tr, held, hq⟩ kw sh n
  exact ⟨a', e, w2, s2, c.trans c2, held2, sh2, tr2, q2⟩

theorem Spec.WinLeft.use (wf : WinWf t s0) (laid : WinLaid t s0) (reach : WinReach tab t s0 wa)
    (start : WinHolds t wa i cap ⟨List.replicate cap 0, [], 0⟩) (kw : Wf t k) {r : Ring} {q : List Byte}
    (h : WinLeft tab t i cap wa w k obj r q) :
    r.fillBuf t k = .ok q ∧ ∀ n, ∃ r', r.consume t n = .ok r' ∧ WinLeft tab t i cap wa w k obj r' (q.drop n) := by
  obtain ⟨w', s, c, held, sh, tr, rfl⟩ := h
  obtain ⟨h1, h2⟩ := WinQueue.holds wf laid reach start tr
  obtain ⟨r0, v, cc, e, all, total, qlen, pos⟩ := id h2
  have := cc.held
  rw [held] at this; injection this with this; injection this with this; subst this
  rw [← e] at cc
  have rep := WinHolds.rep wf laid h1 cc all total qlen pos sh
  refine ⟨rep.fillBuf_eq, fun n => ?_⟩
  have below : (s.step (.consume n)).1.total < posBound t cap := by
    have := pos.below
    rw [total, e] at this
    exact this
  obtain ⟨k', r', w2, ex, call, hh, -, sh'⟩ := h2.run (tab := tab) (op := .consume n) wf laid h1 held below kw sh
  have tr' := tr.call (op := .consume n) below call
  simp only [Ring.exec, bind, Except.bind] at ex
  cases hr : r.consume t n with
  | error f => rw [hr] at ex; cases ex
  | ok x =>
    rw [hr] at ex
    simp only [pure, Except.pure, Except.ok.injEq, Prod.mk.injEq] at ex
    obtain ⟨⟨rfl, rfl⟩, -⟩ := ex
    exact ⟨_, rfl, w2, _, c.trans (.ring .refl rfl call), hh, sh', tr', rfl⟩

theorem Spec.WinLeftInf.use (wf : WinWf t s0) (laid : WinLaid t s0) (reach : WinReach tab t s0 wa)
    (start : WinHoldsInf t wa i cap ⟨List.replicate cap 0, [], 0⟩) (kw : Wf t k) {r : InfiniteRing} {q : List Byte}
    (h : WinLeftInf tab t i cap wa w k obj r q) :
    r.fillBuf t k = .ok q ∧ ∀ n, ∃ r', r.consume t n = .ok r' ∧ WinLeftInf tab t i cap wa w k obj r' (q.drop n) := by
  obtain ⟨w', s, c, held, sh, tr, rfl⟩ := h
  obtain ⟨h1, h2⟩ := WinLossy.holds wf laid reach start tr
  obtain ⟨r0, v, cc, e, all, total, qlen, x, pos⟩ := id h2
  have := cc.held
  rw [held] at this; injection this with this; injection this with this; subst this
  rw [← e] at cc
  have rep := WinHoldsInf.rep wf laid h1 cc all total qlen x pos sh
  refine ⟨rep.fillBuf_eq, fun n => ?_⟩
  have below : (s.step (.consume n)).1.total < posBound t cap := by
    have := pos.below
    rw [total, e] at this
    exact this
  obtain ⟨k', r', w2, ex, call, hh, -, sh'⟩ := h2.run (tab := tab) (op := .consume n) wf laid h1 held below trivial kw sh
  have tr' := tr.call (op := .consume n) below (by simp) trivial call
  simp only [InfiniteRing.exec, bind, Except.bind] at ex
  cases hr : r.consume t n with
  | error f => rw [hr] at ex; cases ex
  | ok x =>
    rw [hr] at ex
    simp only [pure, Except.pure, Except.ok.injEq, Prod.mk.injEq] at ex
    obtain ⟨⟨rfl, rfl⟩, -⟩ := ex
    exact ⟨_, rfl, w2, _, c.trans (.inf .refl rfl call), hh, sh', tr', rfl⟩

theorem Spec.WinLeft.readUntil (wf : WinWf t s0) (laid : WinLaid t s0) (reach : WinReach tab t s0 wa)
    (start : WinHolds t wa i cap ⟨List.replicate cap 0, [], 0⟩) (kw : Wf t k) {r : Ring} {q : List Byte}
    (h : WinLeft tab t i cap wa w k obj r q) (d : Byte) (fuel : Nat) :
    ∃ r', Ring.readUntil t k d (fuel + 2) r [] = .ok (some (r', upTo d q)) ∧
      WinLeft tab t i cap wa w k obj r' (q.drop (upTo d q).length) := by
  obtain ⟨hf, hc⟩ := h.use wf laid reach start kw
  simp only [Ring.readUntil, hf, bind, Except.bind]
  cases hx : q.idxOf? d with
  | some i =>
    obtain ⟨h1, h2⟩ := upTo_found hx
    obtain ⟨r1, e1, v1⟩ := hc (i + 1)
    simp only [e1, pure, Except.pure, List.nil_append]
    refine ⟨r1, by rw [h1], ?_⟩
    rw [h2]
    exact v1
  | none =>
    have hu := upTo_all hx
    obtain ⟨r1, e1, v1⟩ := hc q.length
    simp only [e1, List.nil_append]
    by_cases hz : q.length = 0
    · rw [if_pos hz]
      exact ⟨r1, by rw [hu]; rfl, by rw [hu]; exact v1⟩
    · rw [if_neg hz]
      rw [List.drop_length] at v1
      obtain ⟨hf1, hc1⟩ := v1.use wf laid reach start kw
      obtain ⟨r2, e2, v2⟩ := hc1 0
      simp only [hf1, List.idxOf?_nil, e2, List.length_nil]
      refine ⟨r2, by rw [if_pos trivial, hu, List.append_nil]; rfl, ?_⟩
      rw [hu, List.drop_length]
      simpa using v2

theorem Spec.WinLeftInf.readUntil (wf : WinWf t s0) (laid : WinLaid t s0) (reach : WinReach tab t s0 wa)
    (start : WinHoldsInf t wa i cap ⟨List.replicate cap 0, [], 0⟩) (kw : Wf t k) {r : InfiniteRing} {q : List Byte}
    (h : WinLeftInf tab t i cap wa w k obj r q) (d : Byte) (fuel : Nat) :
    ∃ r', InfiniteRing.readUntil t k d (fuel + 2) r [] = .ok (some (r', upTo d q)) ∧
      WinLeftInf tab t i cap wa w k obj r' (q.drop (upTo d q).length) := by
  obtain ⟨hf, hc⟩ := h.use wf laid reach start kw
  simp only [InfiniteRing.readUntil, hf, bind, Except.bind]
  cases hx : q.idxOf? d with
  | some i =>
    obtain ⟨h1, h2⟩ := upTo_found hx
    obtain ⟨r1, e1, v1⟩ := hc (i + 1)
    simp only [e1, pure, Except.pure, List.nil_append]
    refine ⟨r1, by rw [h1], ?_⟩
    rw [h2]
    exact v1
  | none =>
    have hu := upTo_all hx
    obtain ⟨r1, e1, v1⟩ := hc q.length
    simp only [e1, List.nil_append]
    by_cases hz : q.length = 0
    · rw [if_pos hz]
      exact ⟨r1, by rw [hu]; rfl, by rw [hu]; exact v1⟩
    · rw [if_neg hz]
      rw [List.drop_length] at v1
      obtain ⟨hf1, hc1⟩ := v1.use wf laid reach start kw
      obtain ⟨r2, e2, v2⟩ := hc1 0
      simp only [hf1, List.idxOf?_nil, e2, List.length_nil]
      refine ⟨r2, by rw [if_pos trivial, hu, List.append_nil]; rfl, ?_⟩
      rw [hu, List.drop_length]
      simpa using v2

theorem win_ring_fmt (wf : WinWf t s0) (laid : WinLaid t s0) (reach : WinReach tab t s0 wa)
    (start : WinHolds t wa i cap ⟨List.replicate cap 0, [], 0⟩) : ∀ (pieces : List (List Byte)) {w : WinWorld}
    {k : Kernel} {r : Ring} {s : Spec.Win}, WinQueue tab t i cap wa w s → w.held i = some (.ring r) → Wf t k →
    WinShows w.s k obj → s.total + min pieces.flatten.length s.spare.length < posBound t cap →
    ∃ k' r', r.writeFmt t k pieces = .ok ((k', r'),
        if pieces.flatten.length ≤ s.spare.length then .ok () else .error (.ofKind .writeZero)) ∧ Wf t k' ∧
      WinLeft tab t i cap wa w k' obj r' (s.q ++ pieces.flatten.take s.spare.length) := by
  intro pieces
  induction pieces with
  | nil =>
    intro w k r s tr held kw sh _
    exact ⟨k, r, by simp [Ring.writeFmt, pure, Except.pure], kw, w, s, .refl, held, sh, tr, by simp⟩
  | cons p ps ih =>
    intro w k r s tr held kw sh below
    simp only [List.flatten_cons, List.length_append] at below ⊢
    obtain ⟨r1, k1, w1, e1, c1, tr1, held1, kw1, sh1⟩ := win_ring_sink wf laid reach start tr held kw sh p (by omega)
    simp only [Ring.writeFmt, e1, bind, Except.bind]
    by_cases hp : p.length ≤ s.spare.length
    · rw [if_pos hp]
      have hm : min p.length s.spare.length = p.length := Nat.min_eq_left hp
      have hsp : (s.step (.write p)).1.spare.length = s.spare.length - p.length := by simp [Win.step, hm]
      have hq : (s.step (.write p)).1.q = s.q ++ p := by simp [Win.step, hm]
      have ht : (s.step (.write p)).1.total = s.total + p.length := by simp [Win.step, hm]
      obtain ⟨k2, r2, e2, kw2, w2, s2, c2, held2, sh2, tr2, q2⟩ := ih tr1 held1 kw1 sh1 (by rw [hsp, ht]; omega)
      refine ⟨k2, r2, ?_, kw2, w2, s2, c1.trans c2, held2, sh2, tr2, ?_⟩
      · show r1.writeFmt t k1 ps = _
        rw [e2, hsp]
        congr 2
        by_cases hf : ps.flatten.length ≤ s.spare.length - p.length
        · rw [if_pos hf, if_pos (by omega)]
        · rw [if_neg hf, if_neg (by omega)]
      · rw [q2, hq, hsp, List.take_append, List.take_of_length_le hp, List.append_assoc]
    · rw [if_neg hp]
      have hm : min p.length s.spare.length = s.spare.length := Nat.min_eq_right (by omega)
      refine ⟨k1, r1, ?_, kw1, w1, _, c1, held1, sh1, tr1, ?_⟩
      · rw [if_neg (by omega)]; rfl
      · rw [List.take_append_of_le_length (by omega)]
        simp [Win.step, hm]

theorem win_inf_fmt (wf : WinWf t s0) (laid : WinLaid t s0) (reach : WinReach tab t s0 wa)
    (start : WinHoldsInf t wa i cap ⟨List.replicate cap 0, [], 0⟩) : ∀ (pieces : List (List Byte)) {w : WinWorld}
    {k : Kernel} {r : InfiniteRing} {s : Lossy}, WinLossy tab t i cap wa w s → w.held i = some (.inf r) → Wf t k →
    WinShows w.s k obj → s.total + pieces.flatten.length < posBound t cap →
    ∃ k' r', r.writeFmt t k pieces = .ok (k', r') ∧ Wf t k' ∧
      WinLeftInf tab t i cap wa w k' obj r' (lastN cap (s.q ++ pieces.flatten)) := by
  intro pieces
  induction pieces with
  | nil =>
    intro w k r s tr held kw sh below
    obtain ⟨hc, -⟩ := win_inf_sink wf laid reach start tr held kw sh [] (by simpa using below)
    refine ⟨k, r, rfl, kw, w, s, .refl, held, sh, tr, ?_⟩
    rw [List.flatten_nil, List.append_nil, lastN_all]
    simp only [Lossy.all, List.length_append] at hc
    omega
  | cons p ps ih =>
    intro w k r s tr held kw sh below
    simp only [List.flatten_cons, List.length_append] at below ⊢
    obtain ⟨hc, r1, k1, w1, e1, c1, tr1, held1, kw1, sh1⟩ := win_inf_sink wf laid reach start tr held kw sh p (by omega)
    have e : r.writeAll t k p = .ok (k1, r1) := by
      simp only [InfiniteRing.takeAll, bind, Except.bind, pure, Except.pure] at e1
      cases h : r.writeAll t k p with
      | error f => rw [h] at e1; cases e1
      | ok x =>
        rw [h] at e1
        simp only [Except.ok.injEq, Prod.mk.injEq, and_true] at e1
        rw [← e1.1, ← e1.2]
    simp only [InfiniteRing.writeFmt, e, bind, Except.bind]
    obtain ⟨k2, r2, e2, kw2, w2, s2, c2, held2, sh2, tr2, q2⟩ := ih tr1 held1 kw1 sh1 (by
      have : (s.append (lastN cap p)).total ≤ s.total + p.length := by
        simp only [Lossy.append, lastN, List.length_drop]; omega
      omega)
    refine ⟨k2, r2, e2, kw2, w2, s2, c1.trans c2, held2, sh2, tr2, ?_⟩
    rw [q2, append_q hc, lastN_lastN, ← List.append_assoc, lastN_front]

end
end Vmap
