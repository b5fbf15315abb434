import Verif.Proofs.RingAt
import Verif.Model.RingStd
/- Helper lemmas for the ring properties. -/
namespace Vmap
open Spec Kernel

namespace RingRep
variable {t : Target} {k : Kernel} {r : Ring} {o : Obj} {s : Spec.Win}

theorem readSlice_eq (h : RingRep t k r o s) (max : Nat) :
    readSliceBytes t k r max = .ok (s.q.take max) := by
  simp only [readSliceBytes, h.asReadSlice_eq, bind, Except.bind,
    h.load_read _ (Nat.min_le_left _ _)]
  rw [show s.q.take (min s.q.length max) = s.q.take max by
    rw [Nat.min_comm, List.take_eq_take_iff]; omega]

theorem fillBuf_eq (h : RingRep t k r o s) : r.fillBuf t k = .ok s.q := by
  have h1 := h.len_eq
  have h2 := h.len_lt
  rw [Ring.fillBuf, h.readSlice_eq, List.take_of_length_le (by simp only [Target.usizeMax]; omega)]

theorem writeSlice_eq (h : RingRep t k r o s) (max : Nat) :
    writeSliceBytes t k r max = .ok (s.spare.take max) := by
  simp only [writeSliceBytes, h.asWriteSlice_eq, bind, Except.bind,
    h.load_write _ (Nat.min_le_left _ _)]
  rw [show s.spare.take (min s.spare.length max) = s.spare.take max by
    rw [Nat.min_comm, List.take_eq_take_iff]; omega]

theorem writeSlice_all (h : RingRep t k r o s) :
    writeSliceBytes t k r t.usizeMax = .ok s.spare := by
  have h1 := h.len_eq
  have h2 := h.len_lt
  rw [h.writeSlice_eq, List.take_of_length_le (by simp only [Target.usizeMax]; omega)]

/-- `write`, unwrapped. -/
theorem write_eq (h : RingRep t k r o s) (bs : List Byte)
    (hb : s.total + min bs.length s.spare.length < posBound t r.len) :
    ∃ k' r', r.write t k bs = .ok (k', r', min bs.length s.spare.length) ∧
      r.exec t k (.write bs) = .ok ((k', r'), .num (min bs.length s.spare.length)) ∧
      RingRep t k' r' o (s.step (.write bs)).1 ∧ r'.ptr = r.ptr ∧ r'.len = r.len ∧
      SameButData k k' ∧ (∀ o', o' ≠ o → k'.data o' = k.data o') := by
  obtain ⟨k', r', e, h', p1, p2, sd, d⟩ := ring_step h (.write bs) hb
  refine ⟨k', r', ?_, e, h', p1, p2, sd, d⟩
  simp only [Ring.exec, bind, Except.bind] at e
  cases hw : r.write t k bs with
  | error f => rw [hw] at e; cases e
  | ok x =>
    obtain ⟨k1, r1, n⟩ := x
    rw [hw] at e
    simp only [pure, Except.pure, Win.step, Except.ok.injEq, Prod.mk.injEq, Resp.num.injEq] at e
    obtain ⟨⟨e1, e2⟩, e3⟩ := e
    rw [e1, e2, e3]

/-- `read`, unwrapped. -/
theorem read_eq (h : RingRep t k r o s) (n : Nat) :
    ∃ r', r.read t k n = .ok (r', s.q.take n) ∧
      r.exec t k (.read n) = .ok ((k, r'), .bytes (s.q.take n)) ∧
      RingRep t k r' o ⟨s.spare ++ s.q.take n, s.q.drop n, s.total⟩ ∧ r'.ptr = r.ptr ∧
      r'.len = r.len := by
  have e : r.read t k n = .ok ({ r with rpos := r.rpos + min n s.q.length }, s.q.take n) := by
    simp only [Ring.read, readFrom, h.asReadSlice_eq, bind, Except.bind, SeqRead.consume]
    rw [if_neg (by omega)]
    simp only [pure, Except.pure, h.load_read _ (Nat.min_le_left _ _), h.consume_eq]
    have e1 : min (min s.q.length n) s.q.length = min n s.q.length := by omega
    have e2 : s.q.take (min s.q.length n) = s.q.take n := by
      rw [Nat.min_comm, List.take_eq_take_iff]; omega
    rw [e1, e2]
  refine ⟨_, e, ?_, h.consumed n, rfl, rfl⟩
  simp only [Ring.exec, e, bind, Except.bind, pure, Except.pure]

theorem shows_read (h : RingRep t k r o s) (i : Nat) (hi : i < r.len) :
    k.Shows (r.ptr + r.rpos % r.len + i) o ((r.rpos + i) % r.len) := by
  have hl := Nat.mod_lt r.rpos h.mirror.len_pos
  have := h.mirror.shows' (r.rpos % r.len + i) (by omega)
  rwa [Nat.mod_add_mod, ← Nat.add_assoc] at this

theorem shows_write (h : RingRep t k r o s) (i : Nat) (hi : i < r.len) :
    k.Shows (r.ptr + r.wpos % r.len + i) o ((r.wpos + i) % r.len) := by
  have hl := Nat.mod_lt r.wpos h.mirror.len_pos
  have := h.mirror.shows' (r.wpos % r.len + i) (by omega)
  rwa [Nat.mod_add_mod, ← Nat.add_assoc] at this

end RingRep

theorem Kernel.Shows.separate {k : Kernel} {a b : Nat} {o : Obj} {i j : Nat}
    (ha : k.Shows a o i) (hb : k.Shows b o j) (hij : i ≠ j) : k.Separate a b := by
  intro v k' e
  rw [ha.store v] at e
  injection e with e
  subst e
  rw [(hb.mono (SameButData.setByte k o i v)).load, hb.load]
  simp [setByte, Ne.symm hij]

theorem Kernel.Shows.usable {k : Kernel} {a : Nat} {o : Obj} {i : Nat} (ha : k.Shows a o i) :
    k.Usable a := by
  refine ⟨⟨_, ha.load⟩, fun v => ⟨_, ha.store v, ?_⟩⟩
  rw [(ha.mono (SameButData.setByte k o i v)).load]
  simp [setByte]

/-- One FIFO call, seen on the specification with the write slice. -/
theorem fifo_of_win {cap : Nat} {s : Spec.Win} (hc : s.all.length = cap) {op : RingOp}
    {q : List Byte} {x : Resp} (h : fifoStep cap s.q op = some (q, x)) :
    (s.step op).1.q = q ∧ (s.step op).2 = x ∧ (s.step op).1.all.length = cap ∧
      (s.step op).1.total = if op = .clear then 0 else s.total + fifoAdded cap s.q op := by
  have hl : s.spare.length + s.q.length = cap := by simpa [Win.all] using hc
  have hl' : cap - s.q.length = s.spare.length := by omega
  cases op with
  | write bs =>
    simp only [fifoStep, hl', Option.some.injEq, Prod.mk.injEq] at h
    obtain ⟨h1, h2⟩ := h
    refine ⟨h1, h2, ?_, ?_⟩
    · simp [Win.step, Win.all]; omega
    · simp [Win.step, fifoAdded, hl']
  | read n =>
    simp only [fifoStep, Option.some.injEq, Prod.mk.injEq] at h
    refine ⟨h.1, h.2, ?_, ?_⟩
    · simp [Win.step, Win.all]; omega
    · simp [Win.step, fifoAdded]
  | consume n =>
    simp only [fifoStep, Option.some.injEq, Prod.mk.injEq] at h
    refine ⟨h.1, h.2, ?_, ?_⟩
    · simp [Win.step, Win.all]; omega
    · simp [Win.step, fifoAdded]
  | clear =>
    simp only [fifoStep, Option.some.injEq, Prod.mk.injEq] at h
    refine ⟨h.1, h.2, ?_, ?_⟩
    · simp [Win.step, Win.all, rotate]; omega
    · simp [Win.step]
  | feed n => simp [fifoStep] at h
  | poke bs => simp [fifoStep] at h
  | writeSlice m => simp [fifoStep] at h
  | readSlice m =>
    simp only [fifoStep, Option.some.injEq, Prod.mk.injEq] at h
    exact ⟨h.1, h.2, hc, by simp [Win.step, fifoAdded]⟩
  | readLen =>
    simp only [fifoStep, Option.some.injEq, Prod.mk.injEq] at h
    exact ⟨h.1, h.2, hc, by simp [Win.step, fifoAdded]⟩
  | writeLen =>
    simp only [fifoStep, hl', Option.some.injEq, Prod.mk.injEq] at h
    exact ⟨h.1, h.2, hc, by simp [Win.step, fifoAdded]⟩
  | capacity =>
    simp only [fifoStep, ← hc, Option.some.injEq, Prod.mk.injEq] at h
    exact ⟨h.1, h.2, hc, by simp [Win.step, fifoAdded]⟩
  | isEmpty =>
    simp only [fifoStep, Option.some.injEq, Prod.mk.injEq] at h
    exact ⟨h.1, h.2, hc, by simp [Win.step, fifoAdded]⟩
  | isFull =>
    simp only [fifoStep, Option.some.injEq, Prod.mk.injEq] at h
    refine ⟨h.1, ?_, hc, by simp [Win.step, fifoAdded]⟩
    rw [← h.2]
    simp only [Win.step, Resp.flag.injEq]
    cases hs : s.spare with
    | nil => rw [hs] at hl; simp only [List.length_nil, Nat.zero_add] at hl; simp [hl]
    | cons a l =>
      rw [hs] at hl
      simp only [List.length_cons] at hl
      have : s.q.length ≠ cap := by omega
      simp [this]

/-- A FIFO history, seen on the specification with the write slice. -/
theorem fifo_run {cap bound : Nat} : ∀ (ops : List RingOp) (s : Spec.Win), s.all.length = cap →
    ∀ {q rs}, fifoRun cap s.q ops = some (q, rs) → fifoBelow bound cap s.total s.q ops →
    s.below bound ops ∧ (s.run ops).1.q = q ∧ (s.run ops).2 = rs
  | [], s, _, q, rs, h, _ => by
    simp only [fifoRun, Option.some.injEq, Prod.mk.injEq] at h
    exact ⟨trivial, h.1, h.2⟩
  | op :: ops, s, hc, q, rs, h, hb => by
    simp only [fifoRun, bind, Option.bind] at h
    cases hs : fifoStep cap s.q op with
    | none => rw [hs] at h; cases h
    | some qx =>
      obtain ⟨q1, x⟩ := qx
      rw [hs] at h
      simp only at h
      cases hr : fifoRun cap q1 ops with
      | none => rw [hr] at h; cases h
      | some qrs =>
        obtain ⟨q2, rs2⟩ := qrs
        rw [hr] at h
        simp only [pure, Option.some.injEq, Prod.mk.injEq] at h
        obtain ⟨h1, h2, h3, h4⟩ := fifo_of_win hc hs
        simp only [fifoBelow, hs, ← h4] at hb
        obtain ⟨i1, i2, i3⟩ := fifo_run ops (s.step op).1 h3 (q := q2) (rs := rs2)
          (by rw [h1]; exact hr) (by rw [h1]; exact hb.2)
        refine ⟨⟨hb.1, i1⟩, ?_, ?_⟩
        · simp only [Win.run]; rw [i2]; exact h.1
        · simp only [Win.run, h2, i3]; exact h.2

end Vmap
