import Verif.Spec.RingAt
import Verif.Proofs.Window
import Verif.Proofs.Ring
/- Helper lemmas: `InfiniteRing` refines the specification `Spec.Lossy`. -/
namespace Vmap
open Kernel Spec

/-- The infinite ring `r`, mirrored onto object `o`, represents the specification state `s`. -/
structure InfRep (t : Target) (k : Kernel) (r : InfiniteRing) (o : Obj) (s : Spec.Lossy) :
    Prop where
  mirror : k.Mirror t r.ptr r.len o
  all : s.old ++ s.q = win k o r.len r.wpos
  total : r.wpos = s.total
  qlen : r.rlen = s.q.length
  le : r.rlen ≤ r.wpos
  pos : PosOk t r.len r.wpos

namespace InfRep
variable {t : Target} {k : Kernel} {r : InfiniteRing} {o : Obj} {s : Spec.Lossy}

theorem len_eq (h : InfRep t k r o s) : s.old.length + s.q.length = r.len := by
  have := congrArg List.length h.all
  simpa using this

theorem all_len (h : InfRep t k r o s) : s.all.length = r.len := by
  simp [Lossy.all, h.len_eq]

theorem len_lt (h : InfRep t k r o s) : r.len < t.lim := by
  have := h.mirror.fits
  have := h.mirror.len_pos
  omega

theorem readLen_eq (h : InfRep t k r o s) : r.readLen t = .ok s.q.length := by
  have h1 := h.qlen
  have h2 := h.len_eq
  have h3 := h.len_lt
  rw [InfiniteRing.readLen, asUsize_ok (by omega), h1]

theorem readOffset_eq (h : InfRep t k r o s) :
    r.readOffset t = .ok ((r.wpos - r.rlen) % r.len) := by
  rw [InfiniteRing.readOffset, sub64_ok h.le]
  simp only [bind, Except.bind]
  rw [modU_ok h.mirror.len_pos, (h.pos.le (by omega)).mod]

theorem writeOffset_eq (h : InfRep t k r o s) : r.writeOffset t = .ok (r.wpos % r.len) := by
  rw [InfiniteRing.writeOffset, modU_ok h.mirror.len_pos, h.pos.mod]

theorem read_win (h : InfRep t k r o s) : win k o r.len (r.wpos - r.rlen) = s.q ++ s.old := by
  have h1 := h.len_eq
  have h5 := h.le
  have h6 := h.qlen
  have h2 := win_shift k o r.len (r.wpos - r.rlen) s.q.length (by omega)
  rw [show r.wpos - r.rlen + s.q.length = r.wpos by omega, ← h.all] at h2
  have h3 := List.append_inj h2 (by simp; omega)
  have h4 := List.take_append_drop s.q.length (win k o r.len (r.wpos - r.rlen))
  rw [← h3.1, ← h3.2] at h4
  exact h4.symm

theorem asReadSlice_eq (h : InfRep t k r o s) (max : Nat) :
    asReadSlice t r max = .ok (r.ptr + (r.wpos - r.rlen) % r.len, min s.q.length max) := by
  simp only [asReadSlice, SeqRead.readOffset, SeqRead.readLen, h.readOffset_eq, h.readLen_eq, bind,
    Except.bind, pure, Except.pure, SeqRead.asReadPtr]

theorem asWriteSlice_eq (h : InfRep t k r o s) (max : Nat) :
    asWriteSlice t r max = .ok (r.ptr + r.wpos % r.len, min r.len max) := by
  simp only [asWriteSlice, SeqWrite.writeOffset, SeqWrite.writeLen, h.writeOffset_eq,
    InfiniteRing.writeLen, bind, Except.bind, pure, Except.pure, SeqWrite.asWritePtr]

theorem load_read (h : InfRep t k r o s) (m : Nat) (hm : m ≤ s.q.length) :
    k.loadN (r.ptr + (r.wpos - r.rlen) % r.len) m = .ok (s.q.take m) := by
  have h1 := h.len_eq
  rw [h.mirror.load _ _ (by omega), h.read_win, List.take_append_of_le_length hm]

theorem load_write (h : InfRep t k r o s) (m : Nat) (hm : m ≤ r.len) :
    k.loadN (r.ptr + r.wpos % r.len) m = .ok (s.all.take m) := by
  rw [h.mirror.load _ _ hm, ← h.all]
  rfl

theorem feed_eq (h : InfRep t k r o s) (n : Nat)
    (hp : PosOk t r.len (r.wpos + min n r.len)) (hn : s.q.length + n < lim64) :
    r.feed t n = .ok { r with wpos := r.wpos + min n r.len,
                              rlen := min (s.q.length + n) r.len } := by
  have h1 := h.len_eq
  have h2 := h.len_lt
  have h3 := hp.1
  have h4 := h.qlen
  rw [InfiniteRing.feed, InfiniteRing.writeLen]
  simp only [bind, Except.bind]
  rw [asU64_ok (t := t) (by omega : min n r.len < t.lim), add64_ok h3]
  simp only []
  rw [asU64_ok (t := t) h2, show asU64 n = n from Nat.mod_eq_of_lt (by omega), h4, add64_ok hn]
  rfl

theorem consume_eq (h : InfRep t k r o s) (n : Nat) :
    r.consume t n = .ok { r with rlen := r.rlen - min n s.q.length } := by
  have h1 := h.len_eq
  have h2 := h.len_lt
  have h4 := h.qlen
  rw [InfiniteRing.consume, h.readLen_eq]
  simp only [bind, Except.bind]
  rw [asU64_ok (t := t) (by omega), sub64_ok (by omega)]
  rfl

/-- After storing at the front of the write slice. -/
theorem poked (h : InfRep t k r o s) (bs : List Byte) (hb : bs.length ≤ r.len) :
    ∃ k', k.storeN (r.ptr + r.wpos % r.len) bs = .ok k' ∧ SameButData k k' ∧
      (∀ o', o' ≠ o → k'.data o' = k.data o') ∧
      InfRep t k' r o ⟨(bs ++ s.all.drop bs.length).take s.old.length,
        (bs ++ s.all.drop bs.length).drop s.old.length, s.total⟩ := by
  have h1 := h.len_eq
  obtain ⟨k', e, sd, d, w⟩ := h.mirror.store r.wpos bs (by omega)
  refine ⟨k', e, sd, d, h.mirror.mono sd, ?_, h.total, ?_, h.le, h.pos⟩
  · rw [w, ← h.all, List.take_append_drop]; rfl
  · have := h.qlen
    simp [h.all_len]; omega

/-- After `feed`, in terms of the new window. -/
theorem fed (h : InfRep t k r o s) (n : Nat)
    (hp : PosOk t r.len (r.wpos + min n r.len)) :
    InfRep t k { r with wpos := r.wpos + min n r.len, rlen := min (s.q.length + n) r.len } o
      (s.append (s.all.take n)) := by
  have h1 := h.len_eq
  have h2 := h.all_len
  have h3 := h.le
  have h4 := h.qlen
  have e : lastN r.len (s.all ++ s.all.take n) = win k o r.len (r.wpos + min n r.len) := by
    rw [win_shift _ _ _ _ _ (by omega), ← h.all]
    show (s.all ++ s.all.take n).drop _ = s.all.drop _ ++ s.all.take _
    have e1 : (s.all ++ s.all.take n).length - r.len = min n r.len := by simp [h2]
    rw [e1, List.drop_append_of_le_length (by omega)]
    congr 1
    rw [List.take_eq_take_iff]; omega
  refine ⟨h.mirror, ?_, ?_, ?_, ?_, hp⟩
  · simp only [Lossy.append, List.take_append_drop, h2, e]
  · simp [Lossy.append, h.total, h2]
  · simp only [Lossy.append, h2, e, List.length_take, List.length_drop, win_length]
    omega
  · show min (s.q.length + n) r.len ≤ r.wpos + min n r.len
    omega

/-- After `consume`. -/
theorem consumed (h : InfRep t k r o s) (n : Nat) :
    InfRep t k { r with rlen := r.rlen - min n s.q.length } o
      ⟨s.old ++ s.q.take n, s.q.drop n, s.total⟩ := by
  have h3 := h.le
  have h4 := h.qlen
  refine ⟨h.mirror, ?_, h.total, ?_, ?_, h.pos⟩
  · simp [h.all]
  · simp; omega
  · show r.rlen - _ ≤ r.wpos
    omega

/-- Overwriting the front of memory by `bs` and then appending that front is appending
`bs`. -/
theorem append_poke (s : Lossy) (bs : List Byte) (hb : bs.length ≤ s.all.length) :
    Lossy.append ⟨(bs ++ s.all.drop bs.length).take s.old.length,
        (bs ++ s.all.drop bs.length).drop s.old.length, s.total⟩
      ((Lossy.all ⟨(bs ++ s.all.drop bs.length).take s.old.length,
        (bs ++ s.all.drop bs.length).drop s.old.length, s.total⟩).take bs.length) =
      s.append bs := by
  have hl : s.all.length = s.old.length + s.q.length := by simp [Lossy.all]
  have e1 : Lossy.all ⟨(bs ++ s.all.drop bs.length).take s.old.length,
      (bs ++ s.all.drop bs.length).drop s.old.length, s.total⟩ = bs ++ s.all.drop bs.length := by
    simp only [Lossy.all, List.take_append_drop]
  have e2 : (bs ++ s.all.drop bs.length).length = s.all.length := by simp; omega
  have e3 : ((bs ++ s.all.drop bs.length).drop s.old.length).length = s.q.length := by
    rw [List.length_drop, e2]; omega
  have e4 : lastN s.all.length (bs ++ s.all.drop bs.length ++ bs) =
      lastN s.all.length (s.all ++ bs) := by
    simp only [lastN]
    rw [show (bs ++ s.all.drop bs.length ++ bs).length - s.all.length = bs.length by
      rw [List.length_append, e2]; omega,
      show (s.all ++ bs).length - s.all.length = bs.length by simp,
      List.append_assoc, List.drop_left, List.drop_append_of_le_length hb]
  simp only [Lossy.append, e1, List.take_left, e2, e3, e4]

/-- Storing `bs` (at most the capacity) at the front of the write slice, then `feed`. -/
theorem written (h : InfRep t k r o s) (bs : List Byte) (hb : bs.length ≤ r.len)
    (hp : PosOk t r.len (r.wpos + bs.length)) :
    ∃ k', k.storeN (r.ptr + r.wpos % r.len) bs = .ok k' ∧ SameButData k k' ∧
      (∀ o', o' ≠ o → k'.data o' = k.data o') ∧
      ∃ r', r.feed t bs.length = .ok r' ∧ r'.ptr = r.ptr ∧ r'.len = r.len ∧
        InfRep t k' r' o (s.append bs) := by
  have h1 := h.len_eq
  have h2 := h.len_lt
  have h5 : 2 * r.len ≤ lim64 := by
    have := h.mirror.fits
    have := lim_le_lim64 t
    omega
  have h6 := h.mirror.len_pos
  obtain ⟨k', e, sd, d, h'⟩ := h.poked bs hb
  have hm : min bs.length r.len = bs.length := Nat.min_eq_left hb
  refine ⟨k', e, sd, d, ?_⟩
  by_cases c : s.q.length + bs.length < lim64
  · have hf := h.feed_eq bs.length (by rw [hm]; exact hp) c
    have hf' := h'.fed bs.length (by rw [hm]; exact hp)
    rw [append_poke s bs (by rw [h.all_len]; exact hb)] at hf'
    refine ⟨_, hf, rfl, rfl, ?_⟩
    have e3 : ((bs ++ s.all.drop bs.length).drop s.old.length).length = s.q.length := by
      rw [List.length_drop, List.length_append, List.length_drop, h.all_len]; omega
    rw [e3] at hf'
    exact hf'
  · have := h.pos.1
    have := hp.1
    have := h.le
    have := h.qlen
    omega

end InfRep

/-- One call. -/
theorem inf_step {t : Target} {k : Kernel} {r : InfiniteRing} {o : Obj} {s : Spec.Lossy}
    (h : InfRep t k r o s) (op : RingOp) (hb : (s.step op).1.total < posBound t r.len)
    (hf : FeedOk r.len op) :
    ∃ k' r', r.exec t k op = .ok ((k', r'), (s.step op).2) ∧ InfRep t k' r' o (s.step op).1 ∧
      r'.ptr = r.ptr ∧ r'.len = r.len ∧ SameButData k k' ∧
      (∀ o', o' ≠ o → k'.data o' = k.data o') := by
  have h1 := h.len_eq
  have h2 := h.len_lt
  have h3 := h.all_len
  cases op with
  | write bs =>
    have ht : (bs.take (min bs.length r.len)).length = min bs.length r.len := by simp
    simp only [Lossy.step, Lossy.append, h3, ht] at hb
    rw [← h.total] at hb
    obtain ⟨k', e, sd, d, r', hfe, p1, p2, h'⟩ := h.written (bs.take (min bs.length r.len))
      (by omega) (posOk_of_lt (by rw [ht]; exact hb))
    refine ⟨k', r', ?_, ?_, p1, p2, sd, d⟩
    · rw [ht] at hfe
      simp only [InfiniteRing.exec, InfiniteRing.write, writeInto, h.asWriteSlice_eq, bind,
        Except.bind, SeqWrite.feed, Nat.min_comm r.len]
      rw [if_neg (by omega)]
      simp only [pure, Except.pure, e, hfe, Lossy.step, h3]
    · simp only [Lossy.step, h3]; exact h'
  | read n =>
    refine ⟨k, _, ?_, h.consumed n, rfl, rfl, SameButData.refl k, fun _ _ => rfl⟩
    simp only [InfiniteRing.exec, InfiniteRing.read, readFrom, h.asReadSlice_eq, bind, Except.bind,
      SeqRead.consume]
    rw [if_neg (by omega)]
    simp only [pure, Except.pure, h.load_read _ (Nat.min_le_left _ _), h.consume_eq, Lossy.step]
    have e1 : min (min s.q.length n) s.q.length = min n s.q.length := by omega
    have e2 : s.q.take (min s.q.length n) = s.q.take n := by
      rw [Nat.min_comm, List.take_eq_take_iff]; omega
    rw [e1, e2]
  | consume n =>
    refine ⟨k, _, ?_, h.consumed n, rfl, rfl, SameButData.refl k, fun _ _ => rfl⟩
    simp only [InfiniteRing.exec, h.consume_eq, bind, Except.bind, pure, Except.pure, Lossy.step]
  | feed n =>
    simp only [Lossy.step, Lossy.append, List.length_take, h3] at hb
    have hp := posOk_of_lt hb
    rw [← h.total] at hp
    simp only [FeedOk] at hf
    refine ⟨k, _, ?_, h.fed n hp, rfl, rfl, SameButData.refl k, fun _ _ => rfl⟩
    simp only [InfiniteRing.exec, h.feed_eq n hp (by omega), bind, Except.bind, pure, Except.pure,
      Lossy.step]
  | poke bs =>
    have hm : min r.len t.usizeMax = r.len := by
      simp only [Target.usizeMax]; omega
    obtain ⟨k', e, sd, d, h'⟩ := h.poked (bs.take r.len) (by simp; omega)
    refine ⟨k', r, ?_, ?_, rfl, rfl, sd, d⟩
    · simp only [InfiniteRing.exec, poke, h.asWriteSlice_eq, bind, Except.bind, hm, e, pure,
        Except.pure, Lossy.step]
    · simp only [Lossy.step, h3]
      have e : s.all.drop (bs.take r.len).length = s.all.drop bs.length := by
        by_cases c : bs.length ≤ r.len
        · rw [List.take_of_length_le c]
        · rw [List.drop_eq_nil_of_le (by simp; omega), List.drop_eq_nil_of_le (by omega)]
      rw [← e]; exact h'
  | clear =>
    exact ⟨k, r, rfl, h, rfl, rfl, SameButData.refl k, fun _ _ => rfl⟩
  | readSlice max =>
    refine ⟨k, r, ?_, h, rfl, rfl, SameButData.refl k, fun _ _ => rfl⟩
    simp only [InfiniteRing.exec, readSliceBytes, h.asReadSlice_eq, bind, Except.bind,
      h.load_read _ (Nat.min_le_left _ _), pure, Except.pure, Lossy.step]
    rw [show s.q.take (min s.q.length max) = s.q.take max by
      rw [Nat.min_comm, List.take_eq_take_iff]; omega]
  | writeSlice max =>
    refine ⟨k, r, ?_, h, rfl, rfl, SameButData.refl k, fun _ _ => rfl⟩
    simp only [InfiniteRing.exec, writeSliceBytes, h.asWriteSlice_eq, bind, Except.bind,
      h.load_write _ (Nat.min_le_left _ _), pure, Except.pure, Lossy.step]
    rw [show s.all.take (min r.len max) = s.all.take max by
      rw [Nat.min_comm, List.take_eq_take_iff]; omega]
  | readLen =>
    refine ⟨k, r, ?_, h, rfl, rfl, SameButData.refl k, fun _ _ => rfl⟩
    simp only [InfiniteRing.exec, h.readLen_eq, bind, Except.bind, pure, Except.pure, Lossy.step]
  | writeLen =>
    refine ⟨k, r, ?_, h, rfl, rfl, SameButData.refl k, fun _ _ => rfl⟩
    simp only [InfiniteRing.exec, InfiniteRing.writeLen, bind, Except.bind, pure, Except.pure,
      Lossy.step, h3]
  | capacity =>
    refine ⟨k, r, ?_, h, rfl, rfl, SameButData.refl k, fun _ _ => rfl⟩
    simp only [InfiniteRing.exec, SeqWrite.writeCapacity, pure, Except.pure, Lossy.step, h3]
  | isEmpty =>
    refine ⟨k, r, ?_, h, rfl, rfl, SameButData.refl k, fun _ _ => rfl⟩
    simp only [InfiniteRing.exec, isEmpty, SeqRead.readLen, h.readLen_eq, bind, Except.bind, pure,
      Except.pure, Lossy.step]
    cases s.q <;> rfl
  | isFull =>
    refine ⟨k, r, ?_, h, rfl, rfl, SameButData.refl k, fun _ _ => rfl⟩
    simp only [InfiniteRing.exec, isFull, SeqWrite.writeLen, InfiniteRing.writeLen, bind,
      Except.bind, pure, Except.pure, Lossy.step, ← h3]
    cases s.all <;> rfl

end Vmap
