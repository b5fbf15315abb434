import Verif.Proofs.Same
import Verif.Spec.Demo
import Verif.Props.Darwin
/-
Property theorem C156: what rings and buffers answer depends on the capacity and the calls made,
and on nothing else — not on the platform, the pointer width, the build profile, where the memory
was mapped, how often the ring went round before, or what else went on meanwhile.
-/
namespace Vmap
open Spec Kernel

/-- C156: the same calls on two rings in the same state get the same answers, whatever the
machines; and the rings are in the same state afterwards. -/
theorem C156_ring (t1 t2 : Target) {k1 k1' k2 k2' : Kernel} {r1 r1' r2 r2' : Ring}
    {n1 n1' n2 n2' : Nat} {ops : List RingOp} {xs1 xs2 : List Resp}
    (same : SameRing t1 k1 r1 n1 t2 k2 r2 n2) (one : RingAnswers t1 k1 r1 n1 ops xs1 k1' r1' n1')
    (two : RingAnswers t2 k2 r2 n2 ops xs2 k2' r2' n2') :
    xs1 = xs2 ∧ SameRing t1 k1' r1' n1' t2 k2' r2' n2' := by
  obtain ⟨q, sp, tw⟩ := same.twin
  obtain ⟨v1, x1, m1⟩ := one.win tw.one
  obtain ⟨v2, x2, m2⟩ := two.win tw.two
  obtain ⟨a, b, c, d⟩ := win_run_mod ops sp q tw.place
  rw [← b, ← c] at v2
  refine ⟨by rw [x1, x2, a], ?_⟩
  have h1 : (Win.run ⟨sp, q, n1⟩ ops).1.q.length + (Win.run ⟨sp, q, n1⟩ ops).1.spare.length =
      q.length + sp.length := by
    have e : ∀ (ops : List RingOp) (s : Spec.Win), (Win.run s ops).1.q.length +
        (Win.run s ops).1.spare.length = s.q.length + s.spare.length := by
      intro ops
      induction ops with
      | nil => intro s; rfl
      | cons op ops ih =>
        intro s
        simp only [Win.run]
        rw [ih]
        cases op <;> simp [Win.step, Win.all, rotate] <;> omega
    exact e ops ⟨sp, q, n1⟩
  exact Twin.same ⟨v1, v2, by rw [h1, m1, m2]; exact d⟩

/-- C156: newly made rings of the same capacity are in the same state: on Linux or macOS, on any
machine, from any kernel state, whatever size hints were given. -/
theorem C156_new (t1 t2 : Target) {k1 k1' k2 k2' : Kernel} (wf1 : Wf t1 k1) (wf2 : Wf t2 k2)
    (hint1 hint2 : Nat) (hh1 : RingHint t1 k1 hint1) (hh2 : RingHint t2 k2 hint2) (r1 r2 : Ring)
    (made1 : Ring.make t1 k1 hint1 = .ok (k1', .ok r1))
    (made2 : Ring.make t2 k2 hint2 = .ok (k2', .ok r2))
    (cap : SeqWrite.writeCapacity r1 = SeqWrite.writeCapacity r2) :
    SameRing t1 k1' r1 0 t2 k2' r2 0 := by
  obtain ⟨a1, o1, h1, -⟩ := ringRep_make wf1 hh1 made1
  obtain ⟨a2, o2, h2, -⟩ := ringRep_make wf2 hh2 made2
  have v1 : View t1 k1' r1 0 [] (List.replicate r1.len 0) := ⟨a1, o1, h1⟩
  have v2 : View t2 k2' r2 0 [] (List.replicate r2.len 0) := ⟨a2, o2, h2⟩
  have cap : r1.len = r2.len := cap
  rw [← cap] at v2
  exact Twin.same ⟨v1, v2, rfl⟩

/-- C156: the same for infinite rings, `write_all` included. -/
theorem C156_infinite (t1 t2 : Target) {k1 k1' k2 k2' : Kernel} {r1 r1' r2 r2' : InfiniteRing}
    {n1 n1' n2 n2' : Nat} {ops : List InfOp} {xs1 xs2 : List Resp}
    (same : SameInf t1 k1 r1 n1 t2 k2 r2 n2) (one : InfAnswers t1 k1 r1 n1 ops xs1 k1' r1' n1')
    (two : InfAnswers t2 k2 r2 n2 ops xs2 k2' r2' n2') :
    xs1 = xs2 ∧ SameInf t1 k1' r1' n1' t2 k2' r2' n2' := by
  obtain ⟨old, q, v1⟩ := same.first.sees
  obtain ⟨old', q', v2⟩ := same.second.sees
  have e1 := same.readable
  have e2 := same.writable
  rw [v1.fillBuf, v2.fillBuf] at e1
  rw [v1.writeSlice, v2.writeSlice] at e2
  injection e1 with e1
  subst e1
  injection e2 with e2
  have e2 := List.append_cancel_right e2
  subst e2
  obtain ⟨w1, x1⟩ := one.lossy v1
  obtain ⟨w2, x2⟩ := two.lossy v2
  obtain ⟨a, b, c⟩ := lossyAll_total ops old q n1 n2
  rw [← b, ← c] at w2
  exact ⟨by rw [x1, x2, a], w1.at_, w2.at_, by rw [w1.fillBuf, w2.fillBuf],
    by rw [w1.writeSlice, w2.writeSlice]⟩

/-- C156: a buffered reader: with the same inner reader and low-water mark over rings in the same
state, the same calls return the same results, and the inner reader is left in the same state —
it is asked the same things in the same order, and offered the same slices. -/
theorem C156_reader {σ : Type} (R : Reader σ) (t1 t2 : Target) {k1 k1' k2 k2' : Kernel}
    {b1 b1' b2 b2' : BufReader σ} {n1 n2 : Nat} {ops : List RdOp} {xs1 xs2 : List RdResp}
    (same : SameRing t1 k1 b1.buf n1 t2 k2 b2.buf n2) (inner : b1.inner = b2.inner)
    (lowat : b1.lowat = b2.lowat)
    (below1 : n1 + ops.length * SeqWrite.writeCapacity b1.buf <
      posBound t1 (SeqWrite.writeCapacity b1.buf))
    (below2 : n2 + ops.length * SeqWrite.writeCapacity b2.buf <
      posBound t2 (SeqWrite.writeCapacity b2.buf))
    (one : ReaderAnswers R t1 k1 b1 ops xs1 k1' b1') (two : ReaderAnswers R t2 k2 b2 ops xs2 k2' b2') :
    xs1 = xs2 ∧ b1'.inner = b2'.inner ∧ b1'.lowat = b2'.lowat ∧
      ∃ n1' n2', SameRing t1 k1' b1'.buf n1' t2 k2' b2'.buf n2' := by
  obtain ⟨e, n1', n2', tw⟩ := one.twin two ⟨same.twin, inner, lowat⟩ below1 below2
  obtain ⟨⟨q, sp, tw1⟩, h1, h2⟩ := tw
  exact ⟨e, h1, h2, n1', n2', tw1.same⟩

/-- C156: a buffered writer: with the same inner writer, capacity and buffered bytes (wherever in
the rings they lie, and whatever else is in there), the same calls return the same results, the
inner writer is left in the same state and the same bytes stay buffered. -/
theorem C156_writer {σ : Type} (W : Writer σ) (fuel : Nat) (t1 t2 : Target)
    {k1 k1' k2 k2' : Kernel} {b1 b1' b2 b2' : BufWriter σ} {n1 n2 : Nat} {ops : List WrOp}
    {xs1 xs2 : List (Out Nat)} (at1 : RingAt t1 k1 b1.buf n1) (at2 : RingAt t2 k2 b2.buf n2)
    (buffered : b1.buffered t1 k1 = b2.buffered t2 k2)
    (cap : SeqWrite.writeCapacity b1.buf = SeqWrite.writeCapacity b2.buf)
    (inner : b1.inner = b2.inner) (panicked : b1.panicked = b2.panicked)
    (below1 : n1 + ops.length * SeqWrite.writeCapacity b1.buf <
      posBound t1 (SeqWrite.writeCapacity b1.buf))
    (below2 : n2 + ops.length * SeqWrite.writeCapacity b2.buf <
      posBound t2 (SeqWrite.writeCapacity b2.buf))
    (one : WriterAnswers W t1 fuel k1 b1 ops xs1 k1' b1')
    (two : WriterAnswers W t2 fuel k2 b2 ops xs2 k2' b2') :
    xs1 = xs2 ∧ b1'.inner = b2'.inner ∧ b1'.panicked = b2'.panicked ∧
      ∃ q, b1'.buffered t1 k1' = .ok q ∧ b2'.buffered t2 k2' = .ok q := by
  obtain ⟨q, sp, v1⟩ := at1.view
  obtain ⟨q', sp', v2⟩ := at2.view
  rw [BufWriter.buffered, BufWriter.buffered, v1.readSlice, v2.readSlice] at buffered
  injection buffered with hq
  subst hq
  obtain ⟨e, n1', n2', q', tw⟩ := one.twin two ⟨⟨_, v1⟩, ⟨_, v2⟩, cap, inner, panicked⟩ below1 below2
  obtain ⟨⟨s1, w1⟩, ⟨s2, w2⟩, -, h1, h2⟩ := tw
  exact ⟨e, h1, h2, q', w1.readSlice, w2.readSlice⟩

/-- C156: and the runs exist: however the calls are chosen, a ring answers all of them, as long as
fewer bytes go through than its position arithmetic holds. -/
theorem C156_runs (t : Target) {k : Kernel} {r : Ring} {n : Nat} (h : RingAt t k r n)
    (ops : List RingOp)
    (below : n + ops.length * SeqWrite.writeCapacity r < posBound t (SeqWrite.writeCapacity r)) :
    ∃ xs k' r' n', RingAnswers t k r n ops xs k' r' n' := by
  induction ops generalizing k r n with
  | nil => exact ⟨_, _, _, _, .done k r n⟩
  | cons op ops ih =>
    obtain ⟨q, sp, v⟩ := h.view
    have hl := v.len
    simp only [List.length_cons, Nat.succ_mul, SeqWrite.writeCapacity] at below
    have hp : passed op n sp.length ≤ n + r.len := by
      cases op <;> simp only [passed] <;> omega
    have hb : passed op n sp.length < posBound t r.len := by omega
    obtain ⟨k1, r1, e, v1, p1, -⟩ := v.step op hb
    obtain ⟨xs, k', r', n', run⟩ := ih v1.at_ (by simp only [SeqWrite.writeCapacity, p1]; omega)
    exact ⟨_, _, _, _, .call v.writeLen hb e run⟩

/-- C156: buffered readers answer all calls as well. -/
theorem C156_reader_runs {σ : Type} (R : Reader σ) (t : Target) (ops : List RdOp) :
    ∀ {k : Kernel} {b : BufReader σ} {n : Nat}, RingAt t k b.buf n →
    n + ops.length * SeqWrite.writeCapacity b.buf < posBound t (SeqWrite.writeCapacity b.buf) →
    ∃ xs k' b', ReaderAnswers R t k b ops xs k' b' := by
  induction ops with
  | nil => intro k b n _ _; exact ⟨_, _, _, .done k b⟩
  | cons op ops ih =>
    intro k b n h below
    obtain ⟨q, sp, v⟩ := h.view
    simp only [List.length_cons, Nat.succ_mul, SeqWrite.writeCapacity] at below
    obtain ⟨k1, b1, _, _, x, o, n1, _, e, -, tw, p1, -, p2, -⟩ :=
      rd_twin R (t1 := t) (t2 := t) ⟨⟨q, sp, v, v, rfl⟩, rfl, rfl⟩ (by omega) (by omega) op
    obtain ⟨⟨_, _, v1⟩, -, -⟩ := tw
    obtain ⟨xs, k', b', run⟩ := ih v1.one.at_ (by simp only [SeqWrite.writeCapacity, p1]; omega)
    exact ⟨_, _, _, .call e run⟩

/-- C156: and so do buffered writers (a call that does not come to an end because the inner writer
says `Interrupted` for ever is answered with `pending` after `fuel` rounds). -/
theorem C156_writer_runs {σ : Type} (W : Writer σ) (fuel : Nat) (t : Target) (ops : List WrOp) :
    ∀ {k : Kernel} {b : BufWriter σ} {n : Nat}, RingAt t k b.buf n →
    n + ops.length * SeqWrite.writeCapacity b.buf < posBound t (SeqWrite.writeCapacity b.buf) →
    ∃ xs k' b', WriterAnswers W t fuel k b ops xs k' b' := by
  induction ops with
  | nil => intro k b n _ _; exact ⟨_, _, _, .done k b⟩
  | cons op ops ih =>
    intro k b n h below
    obtain ⟨q, sp, v⟩ := h.view
    simp only [List.length_cons, Nat.succ_mul, SeqWrite.writeCapacity] at below
    obtain ⟨k1, b1, _, _, x, n1, _, _, e, -, tw, p1, p2, -⟩ :=
      wr_twin W (t1 := t) (t2 := t) ⟨⟨sp, v⟩, ⟨sp, v⟩, rfl, rfl, rfl⟩ (by omega) (by omega) fuel op
    obtain ⟨⟨_, v1⟩, -⟩ := tw
    obtain ⟨xs, k', b', run⟩ := ih v1.at_ (by simp only [SeqWrite.writeCapacity, p1]; omega)
    exact ⟨_, _, _, .call e run⟩

/-- C156: newly made infinite rings of the same capacity are in the same state. -/
theorem C156_infinite_new (t1 t2 : Target) {k1 k1' k2 k2' : Kernel} (wf1 : Wf t1 k1)
    (wf2 : Wf t2 k2) (hint1 hint2 : Nat) (fits1 : RingFits t1 k1 hint1)
    (fits2 : RingFits t2 k2 hint2) (r1 r2 : InfiniteRing)
    (made1 : InfiniteRing.make t1 k1 hint1 = .ok (k1', .ok r1))
    (made2 : InfiniteRing.make t2 k2 hint2 = .ok (k2', .ok r2))
    (cap : SeqWrite.writeCapacity r1 = SeqWrite.writeCapacity r2) :
    SameInf t1 k1' r1 0 t2 k2' r2 0 := by
  have new : ∀ {t : Target} {k k' : Kernel} {hint : Nat} {r : InfiniteRing}, Wf t k →
      RingFits t k hint → InfiniteRing.make t k hint = .ok (k', .ok r) →
      InfSees t k' r 0 (List.replicate r.len 0) [] := by
    intro t k k' hint r w hf made
    obtain ⟨k1, res, e, -, h2⟩ := InfiniteRing.make_good w hf
    rw [e] at made
    cases made
    obtain ⟨m, h1, h2⟩ := h2 r rfl
    obtain ⟨o, a1, a2, a3⟩ := m.owned w
    have f := a1.fits
    have l := a1.len_pos
    refine ⟨.placed m.wf ⟨o, a1, a2⟩ h1 h2, o, a1, ?_, h2, by simp [h1], by omega, ?_⟩
    · simp [win_zero a3]
    · rw [h2]
      exact ⟨by simp [lim64], .inr (by omega)⟩
  have s1 := new wf1 fits1 made1
  have s2 := new wf2 fits2 made2
  have cap : r1.len = r2.len := cap
  rw [← cap] at s2
  exact ⟨s1.at_, s2.at_, by rw [s1.fillBuf, s2.fillBuf], by rw [s1.writeSlice, s2.writeSlice]⟩

/-! ### Examples -/

/-- Two rings in the same state: on Linux in a 32-bit release build, and on macOS in a 64-bit
debug build, made with different hints. -/
theorem same_demo : ∃ k1 r1 k2 r2, SameRing ⟨.w32, false⟩ k1 r1 0 ⟨.w64, true⟩ k2 r2 0 ∧
    SeqWrite.writeCapacity r1 = 8192 ∧ SeqWrite.writeCapacity r2 = 8192 := by
  obtain ⟨k1, r1, e1, c1⟩ : ∃ k r, Ring.make ⟨.w32, false⟩ (demo 0) 5000 = .ok (k, .ok r) ∧
    r.len = 8192 := ⟨_, _, rfl, rfl⟩
  obtain ⟨k2, r2, e2, c2⟩ : ∃ k r, Ring.make ⟨.w64, true⟩ demoMac 8000 = .ok (k, .ok r) ∧
    r.len = 8192 := ⟨_, _, rfl, rfl⟩
  refine ⟨k1, r1, k2, r2, C156_new _ _ (demo_wf 0) demoMac_wf 5000 8000 ?_ ?_ r1 r2 e1 e2
    (c1.trans c2.symm), c1, c2⟩
  · exact ⟨by simp [Target.lim, Width.bits], fun h => by cases h⟩
  · exact ⟨by simp [Target.lim, Width.bits], fun _ => ⟨by show (8000 + 4096 : Nat) < _; decide,
      fun _ => by show (2 * (8000 + 4096) : Nat) ≤ _; decide⟩⟩

-- runs of the same calls on both, `feed` (which shows what lies in the memory) and `clear` included
example : ∃ k1 r1 k2 r2 xs1 xs2 k1' r1' n1 k2' r2' n2,
    SameRing ⟨.w32, false⟩ k1 r1 0 ⟨.w64, true⟩ k2 r2 0 ∧
    RingAnswers ⟨.w32, false⟩ k1 r1 0 [.write [1, 2, 3], .read 2, .feed 7, .readSlice 9, .clear,
      .writeSlice 5] xs1 k1' r1' n1 ∧
    RingAnswers ⟨.w64, true⟩ k2 r2 0 [.write [1, 2, 3], .read 2, .feed 7, .readSlice 9, .clear,
      .writeSlice 5] xs2 k2' r2' n2 ∧ xs1 = xs2 := by
  obtain ⟨k1, r1, k2, r2, h, c1, c2⟩ := same_demo
  have b : ∀ t : Target, 0 + 6 * 8192 < posBound t 8192 := by
    intro t
    unfold posBound
    split
    · simp [lim64]
    · rcases t with ⟨w, c⟩; cases w <;> simp [Target.lim, Width.bits]
  obtain ⟨xs1, k1', r1', n1, a1⟩ := C156_runs _ h.first [.write [1, 2, 3], .read 2, .feed 7,
    .readSlice 9, .clear, .writeSlice 5] (by rw [c1]; exact b _)
  obtain ⟨xs2, k2', r2', n2, a2⟩ := C156_runs _ h.second [.write [1, 2, 3], .read 2, .feed 7,
    .readSlice 9, .clear, .writeSlice 5] (by rw [c2]; exact b _)
  exact ⟨k1, r1, k2, r2, xs1, xs2, k1', r1', n1, k2', r2', n2, h, a1, a2, (C156_ring _ _ h a1 a2).1⟩

-- buffers over the two rings meet the hypotheses
example : ∃ k1 r1 k2 r2, SameRing ⟨.w32, false⟩ k1 r1 0 ⟨.w64, true⟩ k2 r2 0 ∧
    0 + 100 * SeqWrite.writeCapacity r1 < posBound ⟨.w32, false⟩ (SeqWrite.writeCapacity r1) ∧
    0 + 100 * SeqWrite.writeCapacity r2 < posBound ⟨.w64, true⟩ (SeqWrite.writeCapacity r2) := by
  obtain ⟨k1, r1, k2, r2, h, c1, c2⟩ := same_demo
  refine ⟨k1, r1, k2, r2, h, ?_, ?_⟩
  · rw [c1]; unfold posBound; split <;> simp [lim64, Target.lim, Width.bits]
  · rw [c2]; unfold posBound; split <;> simp [lim64, Target.lim, Width.bits]

end Vmap
