import Verif.Proofs.Lines
import Verif.Proofs.ForkRing
import Verif.Proofs.BufReader
import Verif.Proofs.BufWriter
import Verif.Spec.Same
/- Helper lemmas for C156. -/
namespace Vmap
open Spec Kernel

theorem View.other {t : Target} {k k' : Kernel} {r : Ring} {n : Nat} {q sp : List Byte}
    (h : View t k r n q sp) (a : Kernel.Apart t k k' r.ptr r.len) : View t k' r n q sp := by
  obtain ⟨o, h1⟩ := h.rep
  obtain ⟨-, -, -, -, -, w⟩ := h.at_.inv
  exact ⟨.other h.at_ a, o, h1.apart w a⟩

theorem View.cap {t : Target} {k : Kernel} {r : Ring} {n : Nat} {q sp : List Byte}
    (h : View t k r n q sp) : SeqWrite.writeCapacity r = q.length + sp.length := h.len.symm

/-- What a call does to the two slices does not depend on how often the ring went round. -/
theorem win_step_mod (sp q : List Byte) {n1 n2 : Nat}
    (h : n1 % (q.length + sp.length) = n2 % (q.length + sp.length)) (op : RingOp) :
    (Win.step ⟨sp, q, n1⟩ op).2 = (Win.step ⟨sp, q, n2⟩ op).2 ∧
    (Win.step ⟨sp, q, n1⟩ op).1.q = (Win.step ⟨sp, q, n2⟩ op).1.q ∧
    (Win.step ⟨sp, q, n1⟩ op).1.spare = (Win.step ⟨sp, q, n2⟩ op).1.spare ∧
    passed op n1 sp.length % (q.length + sp.length) =
      passed op n2 sp.length % (q.length + sp.length) := by
  cases op <;> simp only [Win.step, passed, Win.all, List.length_append, true_and, and_self, h]
  · rw [Nat.add_mod, h, ← Nat.add_mod]
  · rw [Nat.add_mod, h, ← Nat.add_mod]
  · rw [Nat.add_comm sp.length, h]; trivial

/-- Two rings with the same slices, at the same place. -/
structure Twin (t1 : Target) (k1 : Kernel) (r1 : Ring) (n1 : Nat)
    (t2 : Target) (k2 : Kernel) (r2 : Ring) (n2 : Nat) (q sp : List Byte) : Prop where
  one : View t1 k1 r1 n1 q sp
  two : View t2 k2 r2 n2 q sp
  place : n1 % (q.length + sp.length) = n2 % (q.length + sp.length)

theorem SameRing.twin {t1 t2 : Target} {k1 k2 : Kernel} {r1 r2 : Ring} {n1 n2 : Nat}
    (h : SameRing t1 k1 r1 n1 t2 k2 r2 n2) : ∃ q sp, Twin t1 k1 r1 n1 t2 k2 r2 n2 q sp := by
  obtain ⟨q, sp, v1⟩ := h.first.view
  obtain ⟨q', sp', v2⟩ := h.second.view
  have e1 := h.readable
  have e2 := h.writable
  rw [v1.fillBuf, v2.fillBuf] at e1
  rw [v1.writeSlice, v2.writeSlice] at e2
  cases e1
  cases e2
  have e3 := h.place
  rw [v1.cap, v2.cap] at e3
  exact ⟨q, sp, v1, v2, e3⟩

theorem Twin.same {t1 t2 : Target} {k1 k2 : Kernel} {r1 r2 : Ring} {n1 n2 : Nat}
    {q sp : List Byte} (h : Twin t1 k1 r1 n1 t2 k2 r2 n2 q sp) :
    SameRing t1 k1 r1 n1 t2 k2 r2 n2 :=
  ⟨h.one.at_, h.two.at_, by rw [h.one.fillBuf, h.two.fillBuf],
    by rw [h.one.writeSlice, h.two.writeSlice], by rw [h.one.cap, h.two.cap]; exact h.place⟩

/-- Everything a run does is determined by the slices it starts with. -/
theorem RingAnswers.win {t : Target} {k k' : Kernel} {r r' : Ring} {n n' : Nat} {ops : List RingOp}
    {xs : List Resp} (h : RingAnswers t k r n ops xs k' r' n') :
    ∀ {q sp : List Byte}, View t k r n q sp →
      View t k' r' n' ((Win.run ⟨sp, q, n⟩ ops).1.q) ((Win.run ⟨sp, q, n⟩ ops).1.spare) ∧
      xs = (Win.run ⟨sp, q, n⟩ ops).2 ∧ n' = (Win.run ⟨sp, q, n⟩ ops).1.total := by
  induction h with
  | done k r n => intro q sp v; exact ⟨v, rfl, rfl⟩
  | @call k k1 k2 r r1 r2 n n2 w op x ops xs space below run rest ih =>
    intro q sp v
    have hw := v.writeLen
    rw [space] at hw
    injection hw with hw
    subst hw
    obtain ⟨k', r', e, v1, -⟩ := v.step op below
    rw [run] at e
    injection e with e
    injection e with e1 e2
    injection e1 with e1 e3
    subst e1 e2 e3
    have ht : (Win.step ⟨sp, q, n⟩ op).1 = ⟨(Win.step ⟨sp, q, n⟩ op).1.spare,
        (Win.step ⟨sp, q, n⟩ op).1.q, passed op n sp.length⟩ := by
      cases op <;> simp [Win.step, passed]
    obtain ⟨a, b, c⟩ := ih v1
    rw [← ht] at a b c
    simp only [Win.run]
    exact ⟨a, by rw [b], c⟩
  | other apart rest ih => intro q sp v; exact ih (v.other apart)

theorem win_run_mod : ∀ (ops : List RingOp) (sp q : List Byte) {n1 n2 : Nat},
    n1 % (q.length + sp.length) = n2 % (q.length + sp.length) →
    (Win.run ⟨sp, q, n1⟩ ops).2 = (Win.run ⟨sp, q, n2⟩ ops).2 ∧
    (Win.run ⟨sp, q, n1⟩ ops).1.q = (Win.run ⟨sp, q, n2⟩ ops).1.q ∧
    (Win.run ⟨sp, q, n1⟩ ops).1.spare = (Win.run ⟨sp, q, n2⟩ ops).1.spare ∧
    (Win.run ⟨sp, q, n1⟩ ops).1.total % (q.length + sp.length) =
      (Win.run ⟨sp, q, n2⟩ ops).1.total % (q.length + sp.length)
  | [], sp, q, n1, n2, h => ⟨rfl, rfl, rfl, h⟩
  | op :: ops, sp, q, n1, n2, h => by
    obtain ⟨a, b, c, d⟩ := win_step_mod sp q h op
    have ht : ∀ n, (Win.step ⟨sp, q, n⟩ op).1 = ⟨(Win.step ⟨sp, q, n⟩ op).1.spare,
        (Win.step ⟨sp, q, n⟩ op).1.q, passed op n sp.length⟩ := by
      intro n; cases op <;> simp [Win.step, passed]
    have hl : (Win.step ⟨sp, q, n2⟩ op).1.q.length + (Win.step ⟨sp, q, n2⟩ op).1.spare.length =
        q.length + sp.length := by
      cases op <;> simp [Win.step, Win.all, rotate] <;> omega
    simp only [Win.run]
    rw [ht n1, ht n2, b, c, a]
    obtain ⟨a', b', c', d'⟩ := win_run_mod ops (Win.step ⟨sp, q, n2⟩ op).1.spare
      (Win.step ⟨sp, q, n2⟩ op).1.q (n1 := passed op n1 sp.length) (n2 := passed op n2 sp.length)
      (by rw [hl]; exact d)
    rw [hl] at d'
    exact ⟨by rw [a'], b', c', d'⟩

/-! ### Infinite rings -/

/-- An infinite ring whose memory holds `old` and then the readable bytes `q`. -/
structure InfSees (t : Target) (k : Kernel) (r : InfiniteRing) (n : Nat) (old q : List Byte) :
    Prop where
  at_ : InfAt t k r n
  rep : ∃ o, InfRep t k r o ⟨old, q, n⟩

theorem InfAt.sees {t : Target} {k : Kernel} {r : InfiniteRing} {n : Nat} (h : InfAt t k r n) :
    ∃ old q, InfSees t k r n old q := by
  obtain ⟨o, s, h1, h2, -⟩ := h.inv
  subst h2
  exact ⟨s.old, s.q, h, o, h1⟩

namespace InfSees
variable {t : Target} {k : Kernel} {r : InfiniteRing} {n : Nat} {old q : List Byte}

theorem fillBuf (h : InfSees t k r n old q) : r.fillBuf t k = .ok q := by
  obtain ⟨o, h1⟩ := h.rep
  exact h1.fillBuf_eq

theorem writeSlice (h : InfSees t k r n old q) :
    writeSliceBytes t k r t.usizeMax = .ok (old ++ q) := by
  obtain ⟨o, h1⟩ := h.rep
  obtain ⟨k', r', e, -⟩ := inf_step h1 (.writeSlice t.usizeMax) (by
    have := h1.pos
    rw [h1.total] at this
    simp only [Lossy.step]
    unfold posBound
    split
    · exact this.1
    · rename_i hn
      exact this.2.resolve_left hn) trivial
  have hl := h1.len_eq
  have hlt := h1.mirror.fits
  simp only at hl
  have hm : (Lossy.all ⟨old, q, n⟩).take t.usizeMax = old ++ q := by
    apply List.take_of_length_le
    simp only [Lossy.all, List.length_append, Target.usizeMax]
    omega
  simp only [InfiniteRing.exec, Lossy.step, hm, bind, Except.bind] at e
  split at e
  · cases e
  · rename_i v hv
    cases e
    exact hv

theorem other {k' : Kernel} (h : InfSees t k r n old q) (a : Kernel.Apart t k k' r.ptr r.len) :
    InfSees t k' r n old q := by
  obtain ⟨o, h1⟩ := h.rep
  obtain ⟨-, -, -, -, -, w⟩ := h.at_.inv
  exact ⟨.other h.at_ a, o, h1.apart w a⟩

end InfSees

/-- A history of calls on the lossy queue with its memory in view. -/
def lossyAll (s : Lossy) : List InfOp → Lossy × List Resp
  | [] => (s, [])
  | .call op :: ops => ((lossyAll (s.step op).1 ops).1, (s.step op).2 :: (lossyAll (s.step op).1 ops).2)
  | .writeAll bs :: ops =>
    ((lossyAll (s.append (lastN s.all.length bs)) ops).1,
      .unit :: (lossyAll (s.append (lastN s.all.length bs)) ops).2)

theorem InfAnswers.lossy {t : Target} {k k' : Kernel} {r r' : InfiniteRing} {n n' : Nat}
    {ops : List InfOp} {xs : List Resp} (h : InfAnswers t k r n ops xs k' r' n') :
    ∀ {old q : List Byte}, InfSees t k r n old q →
      InfSees t k' r' n' (lossyAll ⟨old, q, n⟩ ops).1.old (lossyAll ⟨old, q, n⟩ ops).1.q ∧
      xs = (lossyAll ⟨old, q, n⟩ ops).2 := by
  induction h with
  | done k r n => intro old q v; exact ⟨v, rfl⟩
  | @call k k1 k2 r r1 r2 n n2 w op x ops xs space noClear below feed run rest ih =>
    intro old q v
    obtain ⟨o, h1⟩ := v.rep
    have hl := h1.len_eq
    simp only at hl
    have hw : w = r.len := by
      injection space with space
      exact space.symm
    have ht : (Lossy.step ⟨old, q, n⟩ op).1 = ⟨(Lossy.step ⟨old, q, n⟩ op).1.old,
        (Lossy.step ⟨old, q, n⟩ op).1.q, passed op n w⟩ := by
      cases op <;> simp [Lossy.step, passed, Lossy.append, Lossy.all, hw, hl] <;>
        first | rfl | omega | exact absurd rfl noClear
    obtain ⟨k', r', e, h', p1, p2, -⟩ := inf_step h1 op (by rw [ht]; exact below) feed
    rw [run] at e
    injection e with e
    injection e with e1 e2
    injection e1 with e1 e3
    subst e1 e2 e3
    obtain ⟨a, b⟩ := ih ⟨.call v.at_ space noClear below feed run, o, by rw [← ht]; exact h'⟩
    rw [← ht] at a b
    simp only [lossyAll]
    exact ⟨a, by rw [b]⟩
  | @all k k1 k2 r r1 r2 n n2 bs ops xs below run rest ih =>
    intro old q v
    obtain ⟨o, h1⟩ := v.rep
    have hl := h1.all_len
    have htot := h1.total
    simp only at htot
    obtain ⟨k', r', e, h', p1, p2, -⟩ := inf_writeAll h1 bs (by rw [htot]; exact below)
    rw [run] at e
    injection e with e
    injection e with e1 e2
    subst e1 e2
    have ht : Lossy.append ⟨old, q, n⟩ (lastN r.len bs) =
        ⟨(Lossy.append ⟨old, q, n⟩ (lastN r.len bs)).old,
          (Lossy.append ⟨old, q, n⟩ (lastN r.len bs)).q, n + min bs.length r.len⟩ := by
      simp [Lossy.append, lastN]; omega
    obtain ⟨a, b⟩ := ih ⟨.all v.at_ below run, o, by
      show InfRep _ _ _ _ ⟨_, _, n + min bs.length r.len⟩
      rw [← ht]; exact h'⟩
    simp only [SeqWrite.writeCapacity] at a b
    rw [← ht] at a b
    simp only [lossyAll, hl]
    exact ⟨a, by rw [b]⟩
  | other apart rest ih => intro old q v; exact ih (v.other apart)

theorem lossyAll_total : ∀ (ops : List InfOp) (old q : List Byte) (n1 n2 : Nat),
    (lossyAll ⟨old, q, n1⟩ ops).2 = (lossyAll ⟨old, q, n2⟩ ops).2 ∧
    (lossyAll ⟨old, q, n1⟩ ops).1.old = (lossyAll ⟨old, q, n2⟩ ops).1.old ∧
    (lossyAll ⟨old, q, n1⟩ ops).1.q = (lossyAll ⟨old, q, n2⟩ ops).1.q
  | [], old, q, n1, n2 => ⟨rfl, rfl, rfl⟩
  | .call op :: ops, old, q, n1, n2 => by
    have h1 : (Lossy.step ⟨old, q, n1⟩ op).2 = (Lossy.step ⟨old, q, n2⟩ op).2 ∧
        (Lossy.step ⟨old, q, n1⟩ op).1.old = (Lossy.step ⟨old, q, n2⟩ op).1.old ∧
        (Lossy.step ⟨old, q, n1⟩ op).1.q = (Lossy.step ⟨old, q, n2⟩ op).1.q := by
      cases op <;> exact ⟨rfl, rfl, rfl⟩
    obtain ⟨a, b, c⟩ := lossyAll_total ops (Lossy.step ⟨old, q, n2⟩ op).1.old
      (Lossy.step ⟨old, q, n2⟩ op).1.q (Lossy.step ⟨old, q, n1⟩ op).1.total
      (Lossy.step ⟨old, q, n2⟩ op).1.total
    have e : (Lossy.step ⟨old, q, n1⟩ op).1 = ⟨(Lossy.step ⟨old, q, n2⟩ op).1.old,
        (Lossy.step ⟨old, q, n2⟩ op).1.q, (Lossy.step ⟨old, q, n1⟩ op).1.total⟩ := by
      rw [← h1.2.1, ← h1.2.2]
    simp only [lossyAll]
    rw [e, h1.1]
    exact ⟨by rw [a], b, c⟩
  | .writeAll bs :: ops, old, q, n1, n2 => by
    obtain ⟨a, b, c⟩ := lossyAll_total ops
      (Lossy.append ⟨old, q, n2⟩ (lastN (old ++ q).length bs)).old
      (Lossy.append ⟨old, q, n2⟩ (lastN (old ++ q).length bs)).q
      (Lossy.append ⟨old, q, n1⟩ (lastN (old ++ q).length bs)).total
      (Lossy.append ⟨old, q, n2⟩ (lastN (old ++ q).length bs)).total
    simp only [lossyAll]
    refine ⟨?_, b, c⟩
    exact congrArg (Resp.unit :: ·) a

/-! ### Buffered readers -/

section
variable {σ : Type}

namespace Twin
variable {t1 t2 : Target} {k1 k2 : Kernel} {r1 r2 : Ring} {n1 n2 : Nat} {q sp : List Byte}

theorem lens (h : Twin t1 k1 r1 n1 t2 k2 r2 n2 q sp) : r1.len = r2.len := by
  have := h.one.len
  have := h.two.len
  omega

theorem poke (h : Twin t1 k1 r1 n1 t2 k2 r2 n2 q sp) (bs : List Byte) :
    ∃ k1' k2' sp', poke t1 k1 r1 bs = .ok k1' ∧ poke t2 k2 r2 bs = .ok k2' ∧
      Twin t1 k1' r1 n1 t2 k2' r2 n2 q sp' := by
  obtain ⟨k1', e1, v1⟩ := h.one.poke bs
  obtain ⟨k2', e2, v2⟩ := h.two.poke bs
  refine ⟨k1', k2', _, e1, e2, v1, v2, ?_⟩
  have := v1.len
  have := h.one.len
  have e : q.length + (bs.take sp.length ++ sp.drop bs.length).length = q.length + sp.length := by
    omega
  rw [e]
  exact h.place

theorem feed (h : Twin t1 k1 r1 n1 t2 k2 r2 n2 q sp) (m : Nat)
    (b1 : n1 + r1.len < posBound t1 r1.len) (b2 : n2 + r2.len < posBound t2 r2.len) :
    ∃ r1' r2' n1' n2' q' sp', r1.feed t1 m = .ok r1' ∧ r2.feed t2 m = .ok r2' ∧
      Twin t1 k1 r1' n1' t2 k2 r2' n2' q' sp' ∧ r1'.len = r1.len ∧ r2'.len = r2.len ∧
      n1' ≤ n1 + r1.len ∧ n2' ≤ n2 + r2.len := by
  have l1 := h.one.len
  have l2 := h.two.len
  obtain ⟨r1', e1, v1, p1, -⟩ := h.one.feed m (by omega)
  obtain ⟨r2', e2, v2, p2, -⟩ := h.two.feed m (by omega)
  refine ⟨r1', r2', _, _, _, _, e1, e2, ⟨v1, v2, ?_⟩, p1, p2, by omega, by omega⟩
  have := v1.len
  have e : (q ++ sp.take m).length + (sp.drop m).length = q.length + sp.length := by omega
  rw [e, Nat.add_mod, h.place, ← Nat.add_mod]

theorem consume (h : Twin t1 k1 r1 n1 t2 k2 r2 n2 q sp) (m : Nat) :
    ∃ r1' r2' q' sp', r1.consume t1 m = .ok r1' ∧ r2.consume t2 m = .ok r2' ∧
      Twin t1 k1 r1' n1 t2 k2 r2' n2 q' sp' ∧ r1'.len = r1.len ∧ r2'.len = r2.len := by
  obtain ⟨r1', e1, v1, p1, -⟩ := h.one.consume m
  obtain ⟨r2', e2, v2, p2, -⟩ := h.two.consume m
  refine ⟨r1', r2', _, _, e1, e2, ⟨v1, v2, ?_⟩, p1, p2⟩
  have := v1.len
  have := h.one.len
  have e : (q.drop m).length + (sp ++ q.take m).length = q.length + sp.length := by omega
  rw [e]
  exact h.place

end Twin

/-- Two buffered readers with the same slices, inner reader and low-water mark. -/
structure RdTwin (t1 : Target) (k1 : Kernel) (b1 : BufReader σ) (n1 : Nat)
    (t2 : Target) (k2 : Kernel) (b2 : BufReader σ) (n2 : Nat) : Prop where
  rings : ∃ q sp, Twin t1 k1 b1.buf n1 t2 k2 b2.buf n2 q sp
  inner : b1.inner = b2.inner
  lowat : b1.lowat = b2.lowat

theorem fill_twin (R : Reader σ) {t1 t2 : Target} {k1 k2 : Kernel} {b1 b2 : BufReader σ}
    {n1 n2 : Nat} (h : RdTwin t1 k1 b1 n1 t2 k2 b2 n2)
    (l1 : n1 + b1.buf.len < posBound t1 b1.buf.len) (l2 : n2 + b2.buf.len < posBound t2 b2.buf.len) :
    ∃ k1' b1' k2' b2' x n1' n2', b1.fillBuf R t1 k1 = .ok (k1', b1', x) ∧
      b2.fillBuf R t2 k2 = .ok (k2', b2', x) ∧ RdTwin t1 k1' b1' n1' t2 k2' b2' n2' ∧
      b1'.buf.len = b1.buf.len ∧ b2'.buf.len = b2.buf.len ∧
      n1' ≤ n1 + b1.buf.len ∧ n2' ≤ n2 + b2.buf.len := by
  obtain ⟨⟨q, sp, v⟩, hi, hlow⟩ := h
  simp only [BufReader.fillBuf, v.one.readLen, v.two.readLen, bind, Except.bind, ← hlow]
  by_cases hq : q.length ≤ b1.lowat
  · simp only [if_pos hq, v.one.writeSlice, v.two.writeSlice, ← hi]
    cases hr : R.read b1.inner sp with
    | mk inner resp =>
      cases resp with
      | ok m stored =>
        obtain ⟨k1', k2', sp', e1, e2, v'⟩ := v.poke stored
        obtain ⟨r1', r2', n1', n2', q', sp'', f1, f2, v'', p1, p2, p3, p4⟩ := v'.feed m l1 l2
        simp only [e1, e2, f1, f2, BufReader.buffer, v''.one.readSlice, v''.two.readSlice, pure,
          Except.pure]
        exact ⟨_, _, _, _, _, n1', n2', rfl, rfl, ⟨⟨_, _, v''⟩, rfl, rfl⟩, p1, p2, p3, p4⟩
      | err e stored =>
        obtain ⟨k1', k2', sp', e1, e2, v'⟩ := v.poke stored
        simp only [e1, e2, pure, Except.pure]
        exact ⟨_, _, _, _, _, n1, n2, rfl, rfl, ⟨⟨_, _, v'⟩, rfl, rfl⟩, rfl, rfl, by omega,
          by omega⟩
      | panic stored =>
        obtain ⟨k1', k2', sp', e1, e2, v'⟩ := v.poke stored
        simp only [e1, e2, pure, Except.pure]
        exact ⟨_, _, _, _, _, n1, n2, rfl, rfl, ⟨⟨_, _, v'⟩, rfl, rfl⟩, rfl, rfl, by omega,
          by omega⟩
  · simp only [if_neg hq, BufReader.buffer, v.one.readSlice, v.two.readSlice, pure, Except.pure]
    exact ⟨_, _, _, _, _, n1, n2, rfl, rfl, ⟨⟨_, _, v⟩, hi, hlow⟩, rfl, rfl, by omega, by omega⟩

theorem RdTwin.consume {t1 t2 : Target} {k1 k2 : Kernel} {b1 b2 : BufReader σ}
    {n1 n2 : Nat} (h : RdTwin t1 k1 b1 n1 t2 k2 b2 n2) (m : Nat) :
    ∃ b1' b2', b1.consume t1 m = .ok b1' ∧ b2.consume t2 m = .ok b2' ∧
      RdTwin t1 k1 b1' n1 t2 k2 b2' n2 ∧ b1'.buf.len = b1.buf.len ∧ b2'.buf.len = b2.buf.len := by
  obtain ⟨⟨q, sp, v⟩, hi, hlow⟩ := h
  obtain ⟨r1', r2', q', sp', e1, e2, v', p1, p2⟩ := v.consume m
  simp only [BufReader.consume, e1, e2, bind, Except.bind, pure, Except.pure]
  exact ⟨_, _, rfl, rfl, ⟨⟨_, _, v'⟩, hi, hlow⟩, p1, p2⟩

theorem rd_twin (R : Reader σ) {t1 t2 : Target} {k1 k2 : Kernel} {b1 b2 : BufReader σ}
    {n1 n2 : Nat} (h : RdTwin t1 k1 b1 n1 t2 k2 b2 n2)
    (l1 : n1 + b1.buf.len < posBound t1 b1.buf.len) (l2 : n2 + b2.buf.len < posBound t2 b2.buf.len)
    (op : RdOp) :
    ∃ k1' b1' k2' b2' x o n1' n2', b1.exec R t1 k1 op = .ok ((k1', b1'), x, o) ∧
      b2.exec R t2 k2 op = .ok ((k2', b2'), x, o) ∧ RdTwin t1 k1' b1' n1' t2 k2' b2' n2' ∧
      b1'.buf.len = b1.buf.len ∧ b2'.buf.len = b2.buf.len ∧
      n1' ≤ n1 + b1.buf.len ∧ n2' ≤ n2 + b2.buf.len := by
  have h0 := h
  obtain ⟨⟨q, sp, v⟩, hi, hlow⟩ := h
  simp only [BufReader.exec, BufReader.buffer, v.one.readSlice, v.two.readSlice, bind, Except.bind]
  cases op with
  | fillBuf =>
    obtain ⟨k1', b1', k2', b2', x, n1', n2', e1, e2, tw, p⟩ := fill_twin R h0 l1 l2
    simp only [e1, e2, pure, Except.pure]
    exact ⟨_, _, _, _, _, _, n1', n2', rfl, rfl, tw, p⟩
  | consume m =>
    obtain ⟨b1', b2', e1, e2, tw, p1, p2⟩ := h0.consume m
    simp only [e1, e2, pure, Except.pure]
    exact ⟨_, _, _, _, _, _, n1, n2, rfl, rfl, tw, p1, p2, by omega, by omega⟩
  | setLowat m =>
    exact ⟨_, _, _, _, _, _, n1, n2, rfl, rfl, ⟨⟨_, _, v⟩, hi, rfl⟩, rfl, rfl, by omega, by omega⟩
  | read dst =>
    simp only [BufReader.read, v.one.readLen, v.two.readLen, bind, Except.bind,
      SeqWrite.writeCapacity, ← v.lens]
    by_cases hc : q.length = 0 ∧ dst.length ≥ b1.buf.len
    · simp only [if_pos hc, ← hi]
      cases hr : R.read b1.inner dst with
      | mk inner resp =>
        cases resp <;> simp only [pure, Except.pure] <;>
          exact ⟨_, _, _, _, _, _, n1, n2, rfl, rfl, ⟨⟨_, _, v⟩, rfl, hlow⟩, rfl, v.lens.symm, by omega, by omega⟩
    · simp only [if_neg hc]
      obtain ⟨k1', b1', k2', b2', x, n1', n2', e1, e2, tw, p1, p2, p3, p4⟩ := fill_twin R h0 l1 l2
      rw [← v.lens] at p2 p4
      simp only [e1, e2]
      cases x with
      | ok rem =>
        obtain ⟨c1, c2, f1, f2, tw', q1, q2⟩ := tw.consume (min rem.length dst.length)
        simp only [f1, f2, pure, Except.pure]
        exact ⟨_, _, _, _, _, _, n1', n2', rfl, rfl, tw', by omega, by omega, p3, p4⟩
      | err e =>
        simp only [pure, Except.pure]
        exact ⟨_, _, _, _, _, _, n1', n2', rfl, rfl, tw, p1, p2, p3, p4⟩
      | unwound =>
        simp only [pure, Except.pure]
        exact ⟨_, _, _, _, _, _, n1', n2', rfl, rfl, tw, p1, p2, p3, p4⟩
      | pending =>
        simp only [pure, Except.pure]
        exact ⟨_, _, _, _, _, _, n1', n2', rfl, rfl, tw, p1, p2, p3, p4⟩

theorem RdTwin.left {t1 t2 : Target} {k1 k1' k2 : Kernel} {b1 b2 : BufReader σ}
    {n1 n2 : Nat} (h : RdTwin t1 k1 b1 n1 t2 k2 b2 n2)
    (a : Kernel.Apart t1 k1 k1' b1.buf.ptr b1.buf.len) : RdTwin t1 k1' b1 n1 t2 k2 b2 n2 := by
  obtain ⟨⟨q, sp, v⟩, hi, hlow⟩ := h
  exact ⟨⟨q, sp, v.one.other a, v.two, v.place⟩, hi, hlow⟩

theorem RdTwin.right {t1 t2 : Target} {k1 k2 k2' : Kernel} {b1 b2 : BufReader σ}
    {n1 n2 : Nat} (h : RdTwin t1 k1 b1 n1 t2 k2 b2 n2)
    (a : Kernel.Apart t2 k2 k2' b2.buf.ptr b2.buf.len) : RdTwin t1 k1 b1 n1 t2 k2' b2 n2 := by
  obtain ⟨⟨q, sp, v⟩, hi, hlow⟩ := h
  exact ⟨⟨q, sp, v.one, v.two.other a, v.place⟩, hi, hlow⟩

/-- The first step of a run that is a call, the other activity before it set aside. -/
theorem ReaderAnswers.twin {R : Reader σ} {t1 t2 : Target} {k1 k1' : Kernel} {b1 b1' : BufReader σ}
    {ops : List RdOp} {xs1 : List RdResp} (h1 : ReaderAnswers R t1 k1 b1 ops xs1 k1' b1') :
    ∀ {k2 k2' : Kernel} {b2 b2' : BufReader σ} {xs2 : List RdResp} {n1 n2 : Nat},
    ReaderAnswers R t2 k2 b2 ops xs2 k2' b2' → RdTwin t1 k1 b1 n1 t2 k2 b2 n2 →
    n1 + ops.length * b1.buf.len < posBound t1 b1.buf.len →
    n2 + ops.length * b2.buf.len < posBound t2 b2.buf.len →
    xs1 = xs2 ∧ ∃ n1' n2', RdTwin t1 k1' b1' n1' t2 k2' b2' n2' := by
  induction h1 with
  | done k b =>
    intro k2 k2' b2 b2' xs2 n1 n2 h2
    generalize hops : ([] : List RdOp) = ops at h2
    induction h2 with
    | done k' b' => intro tw _ _; exact ⟨rfl, n1, n2, tw⟩
    | call run rest ih => cases hops
    | other apart rest ih =>
      intro tw l1 l2
      exact ih hops (tw.right apart) l1 l2
  | other apart rest ih =>
    intro k2 k2' b2 b2' xs2 n1 n2 h2 tw l1 l2
    exact ih h2 (tw.left apart) l1 l2
  | @call k ka kb b ba bb op x o ops xs run rest ih =>
    intro k2 k2' b2 b2' xs2 n1 n2 h2
    generalize hops : op :: ops = ops' at h2
    induction h2 with
    | done k' b' => cases hops
    | other apart rest ih' =>
      intro tw l1 l2
      exact ih' hops (tw.right apart) l1 l2
    | @call c ca cb d da db op' x' o' ops2 xs' run' rest' ih' =>
      intro tw l1 l2
      injection hops with ho1 ho2
      subst ho1 ho2
      simp only [List.length_cons, Nat.succ_mul] at l1 l2
      obtain ⟨k1', b1', k2', b2', y, oo, n1', n2', e1, e2, tw', p1, p2, p3, p4⟩ :=
        rd_twin R tw (by omega) (by omega) op
      rw [run] at e1
      rw [run'] at e2
      cases e1
      cases e2
      obtain ⟨e, tw2⟩ := ih rest' tw' (by rw [p1]; omega) (by rw [p2]; omega)
      exact ⟨by rw [e], tw2⟩

/-! ### Buffered writers -/

/-- Two buffered writers with the same buffered bytes, capacity, inner writer and flag; what lies
in the free part of the rings and where is of no importance. -/
structure WrTwin (t1 : Target) (k1 : Kernel) (b1 : BufWriter σ) (n1 : Nat)
    (t2 : Target) (k2 : Kernel) (b2 : BufWriter σ) (n2 : Nat) (q : List Byte) : Prop where
  one : ∃ sp, View t1 k1 b1.buf n1 q sp
  two : ∃ sp, View t2 k2 b2.buf n2 q sp
  lens : b1.buf.len = b2.buf.len
  inner : b1.inner = b2.inner
  flag : b1.panicked = b2.panicked

theorem flush_twin (W : Writer σ) {t1 t2 : Target} {k1 k2 : Kernel} {n1 n2 : Nat} : ∀ (fuel : Nat)
    {b1 b2 : BufWriter σ} {q : List Byte}, WrTwin t1 k1 b1 n1 t2 k2 b2 n2 q →
    ∃ b1' b2' x q', BufWriter.flushBuf W t1 k1 fuel b1 = .ok (b1', x) ∧
      BufWriter.flushBuf W t2 k2 fuel b2 = .ok (b2', x) ∧
      WrTwin t1 k1 b1' n1 t2 k2 b2' n2 q' ∧ b1'.buf.len = b1.buf.len
  | 0, b1, b2, q, h => ⟨b1, b2, .pending, q, rfl, rfl, h, rfl⟩
  | fuel + 1, b1, b2, q, h => by
    obtain ⟨⟨sp1, v1⟩, ⟨sp2, v2⟩, hl, hi, hf⟩ := h
    rw [BufWriter.flushBuf, BufWriter.flushBuf]
    simp only [v1.isEmpty_eq, v2.isEmpty_eq, bind, Except.bind]
    by_cases hq : q.length = 0
    · simp only [hq, BEq.rfl, if_true, pure, Except.pure]
      exact ⟨b1, b2, .ok (), q, rfl, rfl, ⟨⟨_, v1⟩, ⟨_, v2⟩, hl, hi, hf⟩, rfl⟩
    · have hz : (q.length == 0) = false := by simpa using hq
      simp only [hz, Bool.false_eq_true, if_false, BufWriter.buffered, v1.readSlice, v2.readSlice,
        ← hi]
      cases hw : W.write b1.inner q with
      | mk inner resp =>
        cases resp with
        | panic =>
          simp only [pure, Except.pure]
          exact ⟨_, _, _, q, rfl, rfl, ⟨⟨_, v1⟩, ⟨_, v2⟩, hl, rfl, rfl⟩, rfl⟩
        | ok m =>
          cases m with
          | zero =>
            simp only [pure, Except.pure]
            exact ⟨_, _, _, q, rfl, rfl, ⟨⟨_, v1⟩, ⟨_, v2⟩, hl, rfl, rfl⟩, rfl⟩
          | succ m =>
            obtain ⟨r1, e1, w1, p1, -⟩ := v1.consume (m + 1)
            obtain ⟨r2, e2, w2, p2, -⟩ := v2.consume (m + 1)
            simp only [e1, e2]
            obtain ⟨b1', b2', x, q', f1, f2, tw, p⟩ := flush_twin W fuel
              (b1 := ⟨r1, inner, false⟩) (b2 := ⟨r2, inner, false⟩)
              ⟨⟨_, w1⟩, ⟨_, w2⟩, by simp only; omega, rfl, rfl⟩
            exact ⟨b1', b2', x, q', f1, f2, tw, by rw [p]; exact p1⟩
        | err e =>
          by_cases hk : e.kind = .interrupted
          · simp only [if_pos hk]
            obtain ⟨b1', b2', x, q', f1, f2, tw, p⟩ := flush_twin W fuel
              (b1 := ⟨b1.buf, inner, false⟩) (b2 := ⟨b2.buf, inner, false⟩)
              ⟨⟨_, v1⟩, ⟨_, v2⟩, hl, rfl, rfl⟩
            exact ⟨b1', b2', x, q', f1, f2, tw, p⟩
          · simp only [if_neg hk, pure, Except.pure]
            exact ⟨_, _, _, q, rfl, rfl, ⟨⟨_, v1⟩, ⟨_, v2⟩, hl, rfl, rfl⟩, rfl⟩

theorem rest_twin (W : Writer σ) {t1 t2 : Target} {k1 k2 : Kernel} {b1 b2 : BufWriter σ}
    {n1 n2 : Nat} {q : List Byte} (h : WrTwin t1 k1 b1 n1 t2 k2 b2 n2 q)
    (l1 : n1 + b1.buf.len < posBound t1 b1.buf.len) (l2 : n2 + b2.buf.len < posBound t2 b2.buf.len)
    (data : List Byte) :
    ∃ k1' b1' k2' b2' x n1' n2' q', b1.writeRest W t1 k1 data = .ok (k1', b1', x) ∧
      b2.writeRest W t2 k2 data = .ok (k2', b2', x) ∧
      WrTwin t1 k1' b1' n1' t2 k2' b2' n2' q' ∧ b1'.buf.len = b1.buf.len ∧
      n1' ≤ n1 + b1.buf.len ∧ n2' ≤ n2 + b2.buf.len := by
  obtain ⟨⟨sp1, v1⟩, ⟨sp2, v2⟩, hl, hi, hf⟩ := h
  have c1 := v1.len
  have c2 := v2.len
  have hs : sp2.length = sp1.length := by omega
  simp only [BufWriter.writeRest, v1.writeLen, v2.writeLen, bind, Except.bind, hs]
  by_cases hd : data.length ≥ sp1.length
  · simp only [if_pos hd, ← hi]
    cases hw : W.write b1.inner data with
    | mk inner resp =>
      cases resp <;> simp only [pure, Except.pure] <;>
        exact ⟨_, _, _, _, _, n1, n2, q, rfl, rfl, ⟨⟨_, v1⟩, ⟨_, v2⟩, hl, rfl, rfl⟩, rfl, by omega, by omega⟩
  · simp only [if_neg hd]
    obtain ⟨k1', r1, e1, w1, p1, -⟩ := v1.write data (by omega)
    obtain ⟨k2', r2, e2, w2, p2, -⟩ := v2.write data (by omega)
    rw [hs] at e2 w2
    simp only [e1, e2, pure, Except.pure]
    exact ⟨_, _, _, _, _, _, _, _, rfl, rfl, ⟨⟨_, w1⟩, ⟨_, w2⟩, by simp only; omega, hi, hf⟩, p1, by omega, by omega⟩

theorem wr_twin (W : Writer σ) {t1 t2 : Target} {k1 k2 : Kernel} {b1 b2 : BufWriter σ}
    {n1 n2 : Nat} {q : List Byte} (h : WrTwin t1 k1 b1 n1 t2 k2 b2 n2 q)
    (l1 : n1 + b1.buf.len < posBound t1 b1.buf.len) (l2 : n2 + b2.buf.len < posBound t2 b2.buf.len)
    (fuel : Nat) (op : WrOp) :
    ∃ k1' b1' k2' b2' x n1' n2' q', b1.exec W t1 fuel k1 op = .ok ((k1', b1'), x) ∧
      b2.exec W t2 fuel k2 op = .ok ((k2', b2'), x) ∧
      WrTwin t1 k1' b1' n1' t2 k2' b2' n2' q' ∧ b1'.buf.len = b1.buf.len ∧
      n1' ≤ n1 + b1.buf.len ∧ n2' ≤ n2 + b2.buf.len := by
  cases op with
  | flush =>
    obtain ⟨b1', b2', x, q', e1, e2, tw, p⟩ := flush_twin W fuel h
    simp only [BufWriter.exec, BufWriter.flush, e1, e2, bind, Except.bind]
    cases x with
    | ok u =>
      simp only [← tw.inner]
      cases hw : W.flush b1'.inner with
      | mk inner resp =>
        cases resp <;> simp only [pure, Except.pure] <;>
          exact ⟨_, _, _, _, _, n1, n2, q', rfl, rfl, ⟨tw.one, tw.two, tw.lens, rfl, tw.flag⟩, p, by omega, by omega⟩
    | err e =>
      simp only [pure, Except.pure]
      exact ⟨_, _, _, _, _, n1, n2, q', rfl, rfl, tw, p, by omega, by omega⟩
    | unwound =>
      simp only [pure, Except.pure]
      exact ⟨_, _, _, _, _, n1, n2, q', rfl, rfl, tw, p, by omega, by omega⟩
    | pending =>
      simp only [pure, Except.pure]
      exact ⟨_, _, _, _, _, n1, n2, q', rfl, rfl, tw, p, by omega, by omega⟩
  | write data =>
    have h0 := h
    obtain ⟨⟨sp1, v1⟩, ⟨sp2, v2⟩, hl, hi, hf⟩ := h
    have c1 := v1.len
    have c2 := v2.len
    have hs : sp2.length = sp1.length := by omega
    simp only [BufWriter.exec, BufWriter.write, v1.writeLen, v2.writeLen, bind, Except.bind, hs]
    by_cases hd : data.length > sp1.length
    · simp only [if_pos hd]
      obtain ⟨b1', b2', x, q', e1, e2, tw, p⟩ := flush_twin W fuel h0
      simp only [e1, e2]
      cases x with
      | ok u =>
        have p2 := tw.lens
        obtain ⟨k1', c1, k2', c2, y, n1', n2', q'', f1, f2, tw', g1, g2, g3⟩ :=
          rest_twin W tw (by rw [p]; exact l1) (by rw [← p2, p, hl]; exact l2) data
        simp only [f1, f2, pure, Except.pure]
        exact ⟨_, _, _, _, _, n1', n2', q'', rfl, rfl, tw', by omega, by omega, by omega⟩
      | err e =>
        simp only [pure, Except.pure]
        exact ⟨_, _, _, _, _, n1, n2, q', rfl, rfl, tw, p, by omega, by omega⟩
      | unwound =>
        simp only [pure, Except.pure]
        exact ⟨_, _, _, _, _, n1, n2, q', rfl, rfl, tw, p, by omega, by omega⟩
      | pending =>
        simp only [pure, Except.pure]
        exact ⟨_, _, _, _, _, n1, n2, q', rfl, rfl, tw, p, by omega, by omega⟩
    · simp only [if_neg hd]
      obtain ⟨k1', c1, k2', c2, y, n1', n2', q'', f1, f2, tw', g⟩ := rest_twin W h0 l1 l2 data
      simp only [f1, f2, pure, Except.pure]
      exact ⟨_, _, _, _, _, n1', n2', q'', rfl, rfl, tw', g⟩

theorem WrTwin.left {t1 t2 : Target} {k1 k1' k2 : Kernel} {b1 b2 : BufWriter σ}
    {n1 n2 : Nat} {q : List Byte} (h : WrTwin t1 k1 b1 n1 t2 k2 b2 n2 q)
    (a : Kernel.Apart t1 k1 k1' b1.buf.ptr b1.buf.len) : WrTwin t1 k1' b1 n1 t2 k2 b2 n2 q := by
  obtain ⟨⟨sp, v⟩, h2, h3, h4, h5⟩ := h
  exact ⟨⟨sp, v.other a⟩, h2, h3, h4, h5⟩

theorem WrTwin.right {t1 t2 : Target} {k1 k2 k2' : Kernel} {b1 b2 : BufWriter σ}
    {n1 n2 : Nat} {q : List Byte} (h : WrTwin t1 k1 b1 n1 t2 k2 b2 n2 q)
    (a : Kernel.Apart t2 k2 k2' b2.buf.ptr b2.buf.len) : WrTwin t1 k1 b1 n1 t2 k2' b2 n2 q := by
  obtain ⟨h2, ⟨sp, v⟩, h3, h4, h5⟩ := h
  exact ⟨h2, ⟨sp, v.other a⟩, h3, h4, h5⟩

theorem WriterAnswers.twin {W : Writer σ} {fuel : Nat} {t1 t2 : Target} {k1 k1' : Kernel}
    {b1 b1' : BufWriter σ} {ops : List WrOp} {xs1 : List (Out Nat)}
    (h1 : WriterAnswers W t1 fuel k1 b1 ops xs1 k1' b1') :
    ∀ {k2 k2' : Kernel} {b2 b2' : BufWriter σ} {xs2 : List (Out Nat)} {n1 n2 : Nat}
      {q : List Byte},
    WriterAnswers W t2 fuel k2 b2 ops xs2 k2' b2' → WrTwin t1 k1 b1 n1 t2 k2 b2 n2 q →
    n1 + ops.length * b1.buf.len < posBound t1 b1.buf.len →
    n2 + ops.length * b2.buf.len < posBound t2 b2.buf.len →
    xs1 = xs2 ∧ ∃ n1' n2' q', WrTwin t1 k1' b1' n1' t2 k2' b2' n2' q' := by
  induction h1 with
  | done k b =>
    intro k2 k2' b2 b2' xs2 n1 n2 q h2
    generalize hops : ([] : List WrOp) = ops at h2
    induction h2 with
    | done k' b' => intro tw _ _; exact ⟨rfl, n1, n2, q, tw⟩
    | call run rest ih => cases hops
    | other apart rest ih =>
      intro tw l1 l2
      exact ih hops (tw.right apart) l1 l2
  | other apart rest ih =>
    intro k2 k2' b2 b2' xs2 n1 n2 q h2 tw l1 l2
    exact ih h2 (tw.left apart) l1 l2
  | @call k ka kb b ba bb op x ops xs run rest ih =>
    intro k2 k2' b2 b2' xs2 n1 n2 q h2
    generalize hops : op :: ops = ops' at h2
    induction h2 with
    | done k' b' => cases hops
    | other apart rest ih' =>
      intro tw l1 l2
      exact ih' hops (tw.right apart) l1 l2
    | @call c ca cb d da db op' x' ops2 xs' run' rest' ih' =>
      intro tw l1 l2
      injection hops with ho1 ho2
      subst ho1 ho2
      simp only [List.length_cons, Nat.succ_mul] at l1 l2
      obtain ⟨k1', b1', k2', b2', y, n1', n2', q', e1, e2, tw', p1, p3, p4⟩ :=
        wr_twin W tw (by omega) (by omega) fuel op
      rw [run] at e1
      rw [run'] at e2
      cases e1
      cases e2
      have hl := tw.lens
      have hl' := tw'.lens
      obtain ⟨e, tw2⟩ := ih rest' tw' (by rw [p1]; omega) (by rw [← hl', p1, hl]; omega)
      exact ⟨by rw [e], tw2⟩

end
end Vmap
