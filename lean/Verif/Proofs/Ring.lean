import Verif.Model.RingApi
import Verif.Proofs.Window
/- Helper lemmas: `Ring` refines the specification `Spec.Win`. -/
namespace Vmap
open Kernel Spec

/-- The ring `r`, mirrored onto object `o`, represents the specification state `s`. -/
structure RingRep (t : Target) (k : Kernel) (r : Ring) (o : Obj) (s : Spec.Win) : Prop where
  mirror : k.Mirror t r.ptr r.len o
  all : s.spare ++ s.q = win k o r.len r.wpos
  total : r.wpos = s.total
  qlen : r.rpos + s.q.length = r.wpos
  pos : PosOk t r.len r.wpos

namespace RingRep
variable {t : Target} {k : Kernel} {r : Ring} {o : Obj} {s : Spec.Win}

theorem len_eq (h : RingRep t k r o s) : s.spare.length + s.q.length = r.len := by
  have := congrArg List.length h.all
  simpa using this

theorem len_lt (h : RingRep t k r o s) : r.len < t.lim := by
  have := h.mirror.fits
  have := h.mirror.len_pos
  omega

theorem readLen_eq (h : RingRep t k r o s) : r.readLen t = .ok s.q.length := by
  have h1 := h.qlen
  have h2 := h.len_eq
  have h3 := h.len_lt
  rw [Ring.readLen, sub64_ok (by omega)]
  simp only [bind, Except.bind, pure, Except.pure]
  rw [asUsize_ok (by omega)]
  congr 1; omega

theorem writeLen_eq (h : RingRep t k r o s) : r.writeLen t = .ok s.spare.length := by
  have h2 := h.len_eq
  rw [Ring.writeLen, h.readLen_eq]
  simp only [bind, Except.bind]
  rw [subU_ok (by omega)]
  congr 1; omega

theorem readOffset_eq (h : RingRep t k r o s) : r.readOffset t = .ok (r.rpos % r.len) := by
  have h1 := h.qlen
  rw [Ring.readOffset, modU_ok h.mirror.len_pos, (h.pos.le (by omega)).mod]

theorem writeOffset_eq (h : RingRep t k r o s) : r.writeOffset t = .ok (r.wpos % r.len) := by
  rw [Ring.writeOffset, modU_ok h.mirror.len_pos, h.pos.mod]

theorem read_win (h : RingRep t k r o s) : win k o r.len r.rpos = s.q ++ s.spare := by
  have h1 := h.len_eq
  have h2 := win_shift k o r.len r.rpos s.q.length (by omega)
  rw [h.qlen, ← h.all] at h2
  have h3 := List.append_inj h2 (by simp; omega)
  have h4 := List.take_append_drop s.q.length (win k o r.len r.rpos)
  rw [← h3.1, ← h3.2] at h4
  exact h4.symm

theorem asReadSlice_eq (h : RingRep t k r o s) (max : Nat) :
    asReadSlice t r max = .ok (r.ptr + r.rpos % r.len, min s.q.length max) := by
  simp only [asReadSlice, SeqRead.readOffset, SeqRead.readLen, h.readOffset_eq, h.readLen_eq, bind,
    Except.bind, pure, Except.pure, SeqRead.asReadPtr]

theorem asWriteSlice_eq (h : RingRep t k r o s) (max : Nat) :
    asWriteSlice t r max = .ok (r.ptr + r.wpos % r.len, min s.spare.length max) := by
  simp only [asWriteSlice, SeqWrite.writeOffset, SeqWrite.writeLen, h.writeOffset_eq,
    h.writeLen_eq, bind, Except.bind, pure, Except.pure, SeqWrite.asWritePtr]

theorem load_read (h : RingRep t k r o s) (m : Nat) (hm : m ≤ s.q.length) :
    k.loadN (r.ptr + r.rpos % r.len) m = .ok (s.q.take m) := by
  have h1 := h.len_eq
  rw [h.mirror.load _ _ (by omega), h.read_win, List.take_append_of_le_length hm]

theorem load_write (h : RingRep t k r o s) (m : Nat) (hm : m ≤ s.spare.length) :
    k.loadN (r.ptr + r.wpos % r.len) m = .ok (s.spare.take m) := by
  have h1 := h.len_eq
  rw [h.mirror.load _ _ (by omega), ← h.all, List.take_append_of_le_length hm]

theorem feed_eq (h : RingRep t k r o s) (n : Nat)
    (h3 : r.wpos + min n s.spare.length < lim64) :
    r.feed t n = .ok { r with wpos := r.wpos + min n s.spare.length } := by
  have h1 := h.len_eq
  have h2 := h.len_lt
  rw [Ring.feed, h.writeLen_eq]
  simp only [bind, Except.bind]
  rw [asU64_ok (t := t) (by omega), add64_ok h3]
  rfl

theorem consume_eq (h : RingRep t k r o s) (n : Nat) :
    r.consume t n = .ok { r with rpos := r.rpos + min n s.q.length } := by
  have h1 := h.len_eq
  have h2 := h.len_lt
  have h3 := h.pos.1
  have h4 := h.qlen
  rw [Ring.consume, h.readLen_eq]
  simp only [bind, Except.bind]
  rw [asU64_ok (t := t) (by omega), add64_ok (by omega)]
  rfl

/-- After `feed`. -/
theorem fed (h : RingRep t k r o s) (n : Nat)
    (hp : PosOk t r.len (r.wpos + min n s.spare.length)) :
    RingRep t k { r with wpos := r.wpos + min n s.spare.length } o
      ⟨s.spare.drop n, s.q ++ s.spare.take n, s.total + min n s.spare.length⟩ := by
  have h1 := h.len_eq
  have h4 := h.qlen
  refine ⟨h.mirror, ?_, by simp [h.total], by simp; omega, hp⟩
  show s.spare.drop n ++ (s.q ++ s.spare.take n) = win k o r.len (r.wpos + min n s.spare.length)
  rw [win_shift _ _ _ _ _ (by omega), ← h.all, List.drop_append_of_le_length (by omega),
    List.take_append_of_le_length (by omega)]
  by_cases c : n ≤ s.spare.length
  · rw [Nat.min_eq_left c, List.append_assoc]
  · rw [Nat.min_eq_right (by omega), List.drop_eq_nil_of_le (by omega : s.spare.length ≤ n),
      List.take_of_length_le (by omega : s.spare.length ≤ n)]
    simp

/-- After `consume`. -/
theorem consumed (h : RingRep t k r o s) (n : Nat) :
    RingRep t k { r with rpos := r.rpos + min n s.q.length } o
      ⟨s.spare ++ s.q.take n, s.q.drop n, s.total⟩ := by
  have h4 := h.qlen
  refine ⟨h.mirror, ?_, h.total, by simp; omega, h.pos⟩
  simp [h.all]

/-- After storing at the front of the write slice. -/
theorem poked (h : RingRep t k r o s) (bs : List Byte) (hb : bs.length ≤ s.spare.length) :
    ∃ k', k.storeN (r.ptr + r.wpos % r.len) bs = .ok k' ∧ SameButData k k' ∧
      (∀ o', o' ≠ o → k'.data o' = k.data o') ∧
      RingRep t k' r o ⟨bs ++ s.spare.drop bs.length, s.q, s.total⟩ := by
  have h1 := h.len_eq
  obtain ⟨k', e, sd, d, w⟩ := h.mirror.store r.wpos bs (by omega)
  refine ⟨k', e, sd, d, h.mirror.mono sd, ?_, h.total, h.qlen, h.pos⟩
  rw [w, ← h.all, List.drop_append_of_le_length (by omega), List.append_assoc]

/-- After `clear`. -/
theorem cleared (h : RingRep t k r o s) :
    RingRep t k r.clear o (s.step .clear).1 := by
  have h1 := h.len_eq
  have hl := h.mirror.len_pos
  have hm := Nat.mod_lt r.wpos hl
  refine ⟨h.mirror, ?_, rfl, rfl, ⟨by simp [Ring.clear, lim64], .inr (by
    have := h.len_lt; simp only [Ring.clear]; omega)⟩⟩
  have hlen : s.all.length = r.len := by simp [Win.all, h1]
  have hw := win_shift k o r.len (r.wpos % r.len) (r.len - r.wpos % r.len) (by omega)
  rw [win_mod, ← h.all, show r.wpos % r.len + (r.len - r.wpos % r.len) = r.len by omega,
    ← win_mod, Nat.mod_self] at hw
  simp only [Win.step, Ring.clear, rotate, hlen, List.append_nil, ← h.total]
  rw [hw]
  rfl

end RingRep

theorem posOk_of_lt {t : Target} {len x : Nat} (h : x < posBound t len) : PosOk t len x := by
  unfold posBound at h
  have := lim_le_lim64 t
  split at h
  · exact ⟨h, .inl (by assumption)⟩
  · exact ⟨by omega, .inr h⟩

/-- One call. -/
theorem ring_step {t : Target} {k : Kernel} {r : Ring} {o : Obj} {s : Spec.Win}
    (h : RingRep t k r o s) (op : RingOp) (hb : (s.step op).1.total < posBound t r.len) :
    ∃ k' r', r.exec t k op = .ok ((k', r'), (s.step op).2) ∧ RingRep t k' r' o (s.step op).1 ∧
      r'.ptr = r.ptr ∧ r'.len = r.len ∧ SameButData k k' ∧
      (∀ o', o' ≠ o → k'.data o' = k.data o') := by
  have h1 := h.len_eq
  have h2 := h.len_lt
  cases op with
  | write bs =>
    have hm : min s.spare.length bs.length = min bs.length s.spare.length := Nat.min_comm _ _
    simp only [Win.step] at hb
    have hp := posOk_of_lt hb
    rw [← h.total] at hp
    obtain ⟨k', e, sd, d, h'⟩ := h.poked (bs.take (min bs.length s.spare.length)) (by simp; omega)
    have hsl : (bs.take (min bs.length s.spare.length) ++
        s.spare.drop (bs.take (min bs.length s.spare.length)).length).length =
        s.spare.length := by simp; omega
    have hf := h'.feed_eq (min bs.length s.spare.length) (by
      rw [hsl, Nat.min_eq_left (Nat.min_le_right _ _)]; exact hp.1)
    have hf' := h'.fed (min bs.length s.spare.length) (by
      rw [hsl, Nat.min_eq_left (Nat.min_le_right _ _)]; exact hp)
    rw [hsl, Nat.min_eq_left (Nat.min_le_right _ _)] at hf hf'
    refine ⟨k', { r with wpos := r.wpos + min bs.length s.spare.length }, ?_, ?_, rfl, rfl, sd, d⟩
    rotate_left
    · have ht : (bs.take (min bs.length s.spare.length)).length = min bs.length s.spare.length := by
        simp
      simp only [Win.step]
      rw [List.drop_left' ht, List.take_left' ht, ht] at hf'
      exact hf'
    · simp only [Ring.exec, Ring.write, writeInto, h.asWriteSlice_eq, bind, Except.bind, hm,
        SeqWrite.feed]
      rw [if_neg (by omega)]
      simp only [pure, Except.pure, e, hf, Win.step]
  | read n =>
    refine ⟨k, _, ?_, h.consumed n, rfl, rfl, SameButData.refl k, fun _ _ => rfl⟩
    simp only [Ring.exec, Ring.read, readFrom, h.asReadSlice_eq, bind, Except.bind,
      SeqRead.consume]
    rw [if_neg (by omega)]
    simp only [pure, Except.pure, h.load_read _ (Nat.min_le_left _ _), h.consume_eq, Win.step]
    have e1 : min (min s.q.length n) s.q.length = min n s.q.length := by omega
    have e2 : s.q.take (min s.q.length n) = s.q.take n := by
      rw [Nat.min_comm, List.take_eq_take_iff]; omega
    rw [e1, e2]
  | consume n =>
    refine ⟨k, _, ?_, h.consumed n, rfl, rfl, SameButData.refl k, fun _ _ => rfl⟩
    simp only [Ring.exec, h.consume_eq, bind, Except.bind, pure, Except.pure, Win.step]
  | feed n =>
    simp only [Win.step] at hb
    have hp := posOk_of_lt hb
    rw [← h.total] at hp
    refine ⟨k, _, ?_, h.fed n hp, rfl, rfl, SameButData.refl k, fun _ _ => rfl⟩
    simp only [Ring.exec, h.feed_eq n hp.1, bind, Except.bind, pure, Except.pure, Win.step]
  | poke bs =>
    have hm : min s.spare.length t.usizeMax = s.spare.length := by
      simp only [Target.usizeMax]; omega
    obtain ⟨k', e, sd, d, h'⟩ := h.poked (bs.take s.spare.length) (by simp; omega)
    refine ⟨k', r, ?_, ?_, rfl, rfl, sd, d⟩
    · simp only [Ring.exec, poke, h.asWriteSlice_eq, bind, Except.bind, hm, e, pure, Except.pure,
        Win.step]
    · simp only [Win.step]
      have e : s.spare.drop (bs.take s.spare.length).length = s.spare.drop bs.length := by
        by_cases c : bs.length ≤ s.spare.length
        · rw [List.take_of_length_le c]
        · rw [List.drop_eq_nil_of_le (by simp; omega), List.drop_eq_nil_of_le (by omega)]
      rw [← e]; exact h'
  | clear =>
    exact ⟨k, r.clear, rfl, h.cleared, rfl, rfl, SameButData.refl k, fun _ _ => rfl⟩
  | readSlice max =>
    refine ⟨k, r, ?_, h, rfl, rfl, SameButData.refl k, fun _ _ => rfl⟩
    simp only [Ring.exec, readSliceBytes, h.asReadSlice_eq, bind, Except.bind,
      h.load_read _ (Nat.min_le_left _ _), pure, Except.pure, Win.step]
    rw [show s.q.take (min s.q.length max) = s.q.take max by
      rw [Nat.min_comm, List.take_eq_take_iff]; omega]
  | writeSlice max =>
    refine ⟨k, r, ?_, h, rfl, rfl, SameButData.refl k, fun _ _ => rfl⟩
    simp only [Ring.exec, writeSliceBytes, h.asWriteSlice_eq, bind, Except.bind,
      h.load_write _ (Nat.min_le_left _ _), pure, Except.pure, Win.step]
    rw [show s.spare.take (min s.spare.length max) = s.spare.take max by
      rw [Nat.min_comm, List.take_eq_take_iff]; omega]
  | readLen =>
    refine ⟨k, r, ?_, h, rfl, rfl, SameButData.refl k, fun _ _ => rfl⟩
    simp only [Ring.exec, h.readLen_eq, bind, Except.bind, pure, Except.pure, Win.step]
  | writeLen =>
    refine ⟨k, r, ?_, h, rfl, rfl, SameButData.refl k, fun _ _ => rfl⟩
    simp only [Ring.exec, h.writeLen_eq, bind, Except.bind, pure, Except.pure, Win.step]
  | capacity =>
    refine ⟨k, r, ?_, h, rfl, rfl, SameButData.refl k, fun _ _ => rfl⟩
    simp only [Ring.exec, SeqWrite.writeCapacity, pure, Except.pure, Win.step, Win.all,
      List.length_append, h1]
  | isEmpty =>
    refine ⟨k, r, ?_, h, rfl, rfl, SameButData.refl k, fun _ _ => rfl⟩
    simp only [Ring.exec, isEmpty, SeqRead.readLen, h.readLen_eq, bind, Except.bind, pure,
      Except.pure, Win.step]
    cases s.q <;> rfl
  | isFull =>
    refine ⟨k, r, ?_, h, rfl, rfl, SameButData.refl k, fun _ _ => rfl⟩
    simp only [Ring.exec, isFull, SeqWrite.writeLen, h.writeLen_eq, bind, Except.bind, pure,
      Except.pure, Win.step]
    cases s.spare <;> rfl

/-- Any number of calls. -/
theorem ring_run {t : Target} {o : Obj} : ∀ (ops : List RingOp) {k : Kernel} {r : Ring}
    {s : Spec.Win}, RingRep t k r o s → s.below (posBound t r.len) ops →
    ∃ k' r', r.execAll t k ops = .ok ((k', r'), (s.run ops).2) ∧
      RingRep t k' r' o (s.run ops).1 ∧ r'.ptr = r.ptr ∧ r'.len = r.len ∧ SameButData k k' ∧
      (∀ o', o' ≠ o → k'.data o' = k.data o')
  | [], k, r, _, h, _ => ⟨k, r, rfl, h, rfl, rfl, SameButData.refl k, fun _ _ => rfl⟩
  | op :: ops, k, r, s, h, hb => by
    obtain ⟨k1, r1, e1, h1, p1, l1, s1, d1⟩ := ring_step h op hb.1
    obtain ⟨k2, r2, e2, h2, p2, l2, s2, d2⟩ := ring_run ops h1 (by rw [l1]; exact hb.2)
    refine ⟨k2, r2, ?_, h2, by rw [p2, p1], by rw [l2, l1], s1.trans s2,
      fun o' ho => by rw [d2 o' ho, d1 o' ho]⟩
    simp only [Ring.execAll, e1, bind, Except.bind, e2, pure, Except.pure, Win.run]

end Vmap
