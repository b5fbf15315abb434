import Verif.Proofs.RingUse
/- Helper lemmas: a reachable ring seen as (readable bytes, write slice); used for
`BufReader`/`BufWriter`. -/
namespace Vmap
open Spec Kernel

/-- A reachable ring with readable bytes `q` and write slice `sp`. -/
structure View (t : Target) (k : Kernel) (r : Ring) (n : Nat) (q sp : List Byte) : Prop where
  at_ : RingAt t k r n
  rep : ∃ o, RingRep t k r o ⟨sp, q, n⟩

theorem RingAt.view {t : Target} {k : Kernel} {r : Ring} {n : Nat} (h : RingAt t k r n) :
    ∃ q sp, View t k r n q sp := by
  obtain ⟨o, s, h1, h2, -⟩ := h.inv
  subst h2
  exact ⟨s.q, s.spare, h, o, h1⟩

namespace View
variable {t : Target} {k : Kernel} {r : Ring} {n : Nat} {q sp : List Byte}

theorem fillBuf (h : View t k r n q sp) : r.fillBuf t k = .ok q := by
  obtain ⟨o, h1⟩ := h.rep
  exact h1.fillBuf_eq

theorem readSlice (h : View t k r n q sp) : readSliceBytes t k r t.usizeMax = .ok q := h.fillBuf

theorem writeSlice (h : View t k r n q sp) : writeSliceBytes t k r t.usizeMax = .ok sp := by
  obtain ⟨o, h1⟩ := h.rep
  exact h1.writeSlice_all

theorem readLen (h : View t k r n q sp) : r.readLen t = .ok q.length := by
  obtain ⟨o, h1⟩ := h.rep
  exact h1.readLen_eq

theorem isEmpty_eq (h : View t k r n q sp) : isEmpty t r = .ok (q.length == 0) := by
  simp only [isEmpty, SeqRead.readLen, h.readLen, bind, Except.bind, pure, Except.pure]

theorem writeLen (h : View t k r n q sp) : r.writeLen t = .ok sp.length := by
  obtain ⟨o, h1⟩ := h.rep
  exact h1.writeLen_eq

theorem len (h : View t k r n q sp) : q.length + sp.length = r.len := by
  obtain ⟨o, h1⟩ := h.rep
  have := h1.len_eq
  simp only at this
  omega

theorem len_pos (h : View t k r n q sp) : 0 < r.len := by
  obtain ⟨o, h1⟩ := h.rep
  exact h1.mirror.len_pos

theorem len_lt (h : View t k r n q sp) : r.len < t.lim := by
  obtain ⟨o, h1⟩ := h.rep
  exact h1.len_lt

theorem below (h : View t k r n q sp) : n < posBound t r.len := by
  obtain ⟨o, h1⟩ := h.rep
  have := h1.pos
  rw [h1.total] at this
  unfold posBound
  split
  · exact this.1
  · rename_i hn
    exact this.2.resolve_left hn

theorem unique {q' sp' : List Byte} (h : View t k r n q sp) (h' : View t k r n q' sp') :
    q' = q ∧ sp' = sp := by
  have h1 := h.fillBuf
  have h2 := h.writeSlice
  rw [h'.fillBuf] at h1
  rw [h'.writeSlice] at h2
  injection h1 with h1
  injection h2 with h2
  exact ⟨h1, h2⟩

theorem step (h : View t k r n q sp) (op : RingOp)
    (hb : passed op n sp.length < posBound t r.len) :
    ∃ k' r', r.exec t k op = .ok ((k', r'), (Win.step ⟨sp, q, n⟩ op).2) ∧
      View t k' r' (passed op n sp.length) (Win.step ⟨sp, q, n⟩ op).1.q
        (Win.step ⟨sp, q, n⟩ op).1.spare ∧ r'.len = r.len ∧ r'.ptr = r.ptr := by
  obtain ⟨o, h1⟩ := h.rep
  have ht : (Win.step ⟨sp, q, n⟩ op).1.total = passed op n sp.length := by
    cases op <;> simp [Win.step, passed]
  obtain ⟨k', r', e, h', p1, p2, -⟩ := ring_step h1 op (by rw [ht]; exact hb)
  refine ⟨k', r', e, ⟨RingAt.call h.at_ h.writeLen hb e, o, ?_⟩, p2, p1⟩
  rw [← ht]
  exact h'

theorem consume (h : View t k r n q sp) (m : Nat) :
    ∃ r', r.consume t m = .ok r' ∧ View t k r' n (q.drop m) (sp ++ q.take m) ∧
      r'.len = r.len ∧ r'.ptr = r.ptr := by
  obtain ⟨o, h1⟩ := h.rep
  refine ⟨_, h1.consume_eq m, ⟨?_, o, h1.consumed m⟩, rfl, rfl⟩
  exact RingAt.call (op := .consume m) (x := .unit) h.at_ h.writeLen h.below
    (by simp only [Ring.exec, h1.consume_eq, bind, Except.bind, pure, Except.pure])

theorem feed (h : View t k r n q sp) (m : Nat) (hb : n + min m sp.length < posBound t r.len) :
    ∃ r', r.feed t m = .ok r' ∧
      View t k r' (n + min m sp.length) (q ++ sp.take m) (sp.drop m) ∧ r'.len = r.len ∧
      r'.ptr = r.ptr := by
  obtain ⟨o, h1⟩ := h.rep
  have hp : PosOk t r.len (r.wpos + min m sp.length) :=
    posOk_of_lt (by rw [h1.total]; exact hb)
  have hf := h1.feed_eq m hp.1
  refine ⟨_, hf, ⟨?_, o, h1.fed m hp⟩, rfl, rfl⟩
  exact RingAt.call (op := .feed m) (x := .unit) h.at_ h.writeLen hb
    (by simp only [Ring.exec, hf, bind, Except.bind, pure, Except.pure])

theorem poke (h : View t k r n q sp) (bs : List Byte) :
    ∃ k', poke t k r bs = .ok k' ∧
      View t k' r n q (bs.take sp.length ++ sp.drop bs.length) := by
  obtain ⟨k', r', e, hv, -, -⟩ := h.step (.poke bs) h.below
  simp only [Ring.exec, bind, Except.bind] at e
  cases hp : Vmap.poke t k r bs with
  | error f => rw [hp] at e; cases e
  | ok k1 =>
    rw [hp] at e
    simp only [pure, Except.pure, Except.ok.injEq, Prod.mk.injEq] at e
    obtain ⟨⟨e1, e2⟩, -⟩ := e
    subst e1 e2
    exact ⟨k1, rfl, hv⟩

theorem write (h : View t k r n q sp) (bs : List Byte)
    (hb : n + min bs.length sp.length < posBound t r.len) :
    ∃ k' r', r.write t k bs = .ok (k', r', min bs.length sp.length) ∧
      View t k' r' (n + min bs.length sp.length) (q ++ bs.take sp.length)
        (sp.drop bs.length) ∧ r'.len = r.len ∧ r'.ptr = r.ptr := by
  obtain ⟨k', r', e, hv, p2, p1⟩ := h.step (.write bs) hb
  simp only [Ring.exec, bind, Except.bind] at e
  cases hw : r.write t k bs with
  | error f => rw [hw] at e; cases e
  | ok x =>
    obtain ⟨k1, r1, m⟩ := x
    rw [hw] at e
    simp only [pure, Except.pure, Win.step, Except.ok.injEq, Prod.mk.injEq, Resp.num.injEq] at e
    obtain ⟨⟨e1, e2⟩, e3⟩ := e
    subst e1 e2 e3
    refine ⟨_, _, rfl, ?_, p2, p1⟩
    simp only [Win.step, passed] at hv
    rwa [show bs.take (min bs.length sp.length) = bs.take sp.length by
        rw [List.take_eq_take_iff]; omega,
      show sp.drop (min bs.length sp.length) = sp.drop bs.length by
        by_cases c : bs.length ≤ sp.length
        · rw [Nat.min_eq_left c]
        · rw [Nat.min_eq_right (by omega), List.drop_eq_nil_of_le (by omega),
            List.drop_eq_nil_of_le (by omega)]] at hv

end View
end Vmap
