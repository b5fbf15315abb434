import Verif.Props.Ring
import Verif.Spec.Scan
/-
Property theorems C14, C17, C18: provided trait methods (`write_all`, `read_exact`, `read_until`,
`read_to_end`, `bytes::Buf`, `bytes::BufMut`) on a `Ring`.
-/
namespace Vmap
open Spec Kernel

/-! ### C14 -/

theorem writeAll_full {t : Target} {k : Kernel} {r : Ring} {o : Obj} {s : Spec.Win} {n : Nat}
    (ha : RingAt t k r n) (h : RingRep t k r o s) (hn : s.total = n) (hs : s.spare = [])
    (buf : List Byte) (hb : buf ≠ []) :
    ∃ k' r', r.writeAll t k buf = .ok ((k', r'), .error (.ofKind .writeZero)) ∧
      RingAt t k' r' n ∧ r'.fillBuf t k' = .ok s.q ∧ r'.len = r.len := by
  have hpos : s.total + min buf.length s.spare.length < posBound t r.len := by
    have := h.pos
    rw [h.total] at this
    rw [hs]
    simp only [List.length_nil, Nat.min_zero, Nat.add_zero]
    unfold posBound
    split
    · exact this.1
    · rename_i hn
      exact this.2.resolve_left hn
  obtain ⟨k', r', e, ex, h', -, p2, -⟩ := h.write_eq buf hpos
  have hm : min buf.length s.spare.length = 0 := by rw [hs]; simp
  have hp : passed (.write buf) n s.spare.length = n := by simp [passed, hm]
  refine ⟨k', r', ?_, ?_, ?_, p2⟩
  · have hl : ¬ buf.length = 0 := by cases buf <;> simp_all
    rw [Ring.writeAll, dif_neg hl]
    simp only [e, hm]
    rfl
  · have := RingAt.call ha h.writeLen_eq (op := .write buf) (by
      rw [hp]; rw [hm, hn] at hpos; exact hpos) ex
    rwa [hp] at this
  · rw [h'.fillBuf_eq]
    simp [Win.step, hm]

/-- C14: `write_all(buf)` returns `Ok` exactly when `buf` fits, and appends all of it; otherwise
it fills the ring with the leading `write_len()` bytes and returns `WriteZero`. -/
theorem C14_ring_write_all (t : Target) (k : Kernel) (r : Ring) (n : Nat) (h : RingAt t k r n)
    (q : List Byte) (w : Nat) (hq : r.fillBuf t k = .ok q) (hw : r.writeLen t = .ok w)
    (buf : List Byte)
    (below : n + min buf.length w < posBound t (SeqWrite.writeCapacity r)) :
    ∃ k' r', r.writeAll t k buf =
        .ok ((k', r'), if buf.length ≤ w then .ok () else .error (.ofKind .writeZero)) ∧
      r'.fillBuf t k' = .ok (q ++ buf.take w) ∧ RingAt t k' r' (n + min buf.length w) ∧
      SeqWrite.writeCapacity r' = SeqWrite.writeCapacity r := by
  obtain ⟨o, s, h1, h2, h3, h4⟩ := h.inv
  have hw0 := hw
  rw [h1.fillBuf_eq] at hq
  rw [h1.writeLen_eq] at hw
  injection hq with hq
  injection hw with hw
  subst hq hw
  by_cases hb : buf.length = 0
  · have hb' : buf = [] := List.eq_nil_of_length_eq_zero hb
    subst hb'
    refine ⟨k, r, ?_, ?_, by simpa using h, rfl⟩
    · rw [Ring.writeAll, dif_pos hb, if_pos (by simp)]
    · simp [h1.fillBuf_eq]
  · obtain ⟨k', r', e, ex, h', p1, p2, -⟩ := h1.write_eq buf (by rw [h2]; exact below)
    have ha := RingAt.call h hw0 (op := .write buf) below ex
    rw [Ring.writeAll, dif_neg hb]
    simp only [e]
    by_cases hz : min buf.length s.spare.length = 0
    · have hz' : s.spare.length = 0 := by omega
      refine ⟨k', r', ?_, ?_, ha, p2⟩
      · rw [dif_pos hz, if_neg (by omega)]
      · rw [h'.fillBuf_eq]
        simp [Win.step, hz']
    · rw [dif_neg hz, if_neg (by omega)]
      by_cases hf : buf.length ≤ s.spare.length
      · have hm : min buf.length s.spare.length = buf.length := Nat.min_eq_left hf
        refine ⟨k', r', ?_, ?_, ha, p2⟩
        · rw [if_pos hf, hm, Ring.writeAll, dif_pos (by simp)]
        · rw [h'.fillBuf_eq]
          simp only [Win.step, hm, List.take_length, List.take_of_length_le hf]
      · have hm : min buf.length s.spare.length = s.spare.length := Nat.min_eq_right (by omega)
        obtain ⟨k2, r2, e2, a2, f2, l2⟩ := writeAll_full ha h' (by
          simp only [Win.step, passed, h2]) (by simp [Win.step, hm])
          (buf.drop (min buf.length s.spare.length)) (by
            intro hc
            have := congrArg List.length hc
            simp at this; omega)
        refine ⟨k2, r2, ?_, ?_, a2, l2.trans p2⟩
        · rw [e2, if_neg hf]
        · rw [f2]
          simp only [Win.step, hm]

-- a reachable ring holding [1, 2, 3]: the buffer `[9]` fits
example : ∃ k r n q w, RingAt ⟨.w64, true⟩ k r n ∧ r.fillBuf ⟨.w64, true⟩ k = .ok q ∧ q ≠ [] ∧
    r.writeLen ⟨.w64, true⟩ = .ok w ∧
    n + min [(9 : Byte)].length w < posBound ⟨.w64, true⟩ (SeqWrite.writeCapacity r) := by
  obtain ⟨k, r, h, hq⟩ := demo_ringAt
  obtain ⟨_, w, -, hw, -⟩ := C08_ring_lengths _ _ _ _ h
  refine ⟨k, r, 3, _, w, h, hq, by simp, hw, ?_⟩
  have : (12 : Nat) < posBound ⟨.w64, true⟩ r.len := by
    unfold posBound; split <;> simp [lim64, Target.lim, Width.bits]
  have : min [(9 : Byte)].length w ≤ 1 := Nat.min_le_left _ _
  simp only [SeqWrite.writeCapacity]
  omega

/-! ### C17 -/

/-- C17, `read_exact`: the next `m` bytes, or all bytes and `UnexpectedEof` when fewer are
readable. -/
theorem C17_ring_read_exact (t : Target) (k : Kernel) (r : Ring) (n : Nat) (h : RingAt t k r n)
    (q : List Byte) (hq : r.fillBuf t k = .ok q) (m : Nat) :
    ∃ r', r.readExact t k m [] = .ok (r', q.take m,
        if m ≤ q.length then .ok () else .error (.ofKind .unexpectedEof)) ∧
      r'.fillBuf t k = .ok (q.drop m) := by
  obtain ⟨o, s, h1, h2, h3, h4⟩ := h.inv
  rw [h1.fillBuf_eq] at hq
  injection hq with hq
  subst hq
  rw [Ring.readExact]
  by_cases hz : m = 0
  · subst hz
    exact ⟨r, by simp, by simp [h1.fillBuf_eq]⟩
  · rw [dif_neg hz]
    obtain ⟨r', e, -, h', -⟩ := h1.read_eq m
    rw [e]
    simp only
    by_cases hb : (s.q.take m).length = 0
    · have hb' : s.q = [] := by
        apply List.eq_nil_of_length_eq_zero
        simp at hb
        rcases hb with hb | hb
        · exact absurd hb hz
        · simp [hb]
      rw [dif_pos hb]
      refine ⟨r', ?_, h'.fillBuf_eq⟩
      rw [hb', if_neg (by simp; omega)]
      simp
    · rw [dif_neg hb, if_neg (by simp; omega)]
      have hlen : (s.q.take m).length = min m s.q.length := by simp
      by_cases hf : m ≤ s.q.length
      · refine ⟨r', ?_, h'.fillBuf_eq⟩
        rw [Ring.readExact, dif_pos (by omega), if_pos hf]
        simp
      · rw [Ring.readExact, dif_neg (by omega)]
        obtain ⟨r2, e2, -, h'', -⟩ := h'.read_eq (m - (s.q.take m).length)
        have hd : s.q.drop m = [] := List.drop_eq_nil_of_le (by omega)
        rw [e2]
        simp only [hd, List.take_nil, List.length_nil, dite_true, List.nil_append]
        refine ⟨r2, ?_, ?_⟩
        · rw [if_neg hf]
        · rw [h''.fillBuf_eq]
          simp [hd]

theorem upTo_idx (d : Byte) : ∀ l : List Byte,
    (∀ i, l.idxOf? d = some i → upTo d l = l.take (i + 1) ∧ i < l.length) ∧
    (l.idxOf? d = none → upTo d l = l ∧ d ∉ l)
  | [] => by simp [upTo]
  | b :: l => by
    have ih := upTo_idx d l
    rw [List.idxOf?_cons]
    by_cases hb : b = d
    · subst hb
      simp [upTo]
    · have hb' : (b == d) = false := by simp [hb]
      simp only [hb', Bool.false_eq_true, if_false, upTo, hb]
      constructor
      · intro i hi
        cases hx : l.idxOf? d with
        | none => rw [hx] at hi; simp at hi
        | some j =>
          rw [hx] at hi
          simp only [Option.map_some, Option.some.injEq] at hi
          subst hi
          obtain ⟨h1, h2⟩ := ih.1 j hx
          exact ⟨by rw [h1]; rfl, by simp; omega⟩
      · intro hi
        cases hx : l.idxOf? d with
        | none =>
          obtain ⟨h1, h2⟩ := ih.2 hx
          exact ⟨by rw [h1], by simp [h2, Ne.symm hb]⟩
        | some j => rw [hx] at hi; simp at hi

/-- C17, `read_until(d)`: the readable bytes up to and including the first `d`, or all of them;
exactly those are consumed.  Two rounds of the loop always suffice. -/
theorem C17_ring_read_until (t : Target) (k : Kernel) (r : Ring) (n : Nat) (h : RingAt t k r n)
    (q : List Byte) (hq : r.fillBuf t k = .ok q) (d : Byte) (fuel : Nat) :
    ∃ r', Ring.readUntil t k d (fuel + 2) r [] = .ok (some (r', upTo d q)) ∧
      r'.fillBuf t k = .ok (q.drop (upTo d q).length) := by
  obtain ⟨o, s, h1, h2, h3, h4⟩ := h.inv
  rw [h1.fillBuf_eq] at hq
  injection hq with hq
  subst hq
  simp only [Ring.readUntil, h1.fillBuf_eq, bind, Except.bind]
  cases hx : s.q.idxOf? d with
  | some i =>
    obtain ⟨u1, u2⟩ := (upTo_idx d s.q).1 i hx
    have h' := h1.consumed (i + 1)
    simp only [h1.consume_eq, pure, Except.pure, List.nil_append]
    refine ⟨_, by rw [u1], ?_⟩
    rw [h'.fillBuf_eq, u1, List.length_take, Nat.min_eq_left (by omega)]
  | none =>
    obtain ⟨u1, -⟩ := (upTo_idx d s.q).2 hx
    have h' := h1.consumed s.q.length
    simp only [h1.consume_eq, List.nil_append]
    by_cases hz : s.q.length = 0
    · rw [if_pos hz]
      refine ⟨_, by rw [u1]; rfl, ?_⟩
      rw [h'.fillBuf_eq, u1]
    · rw [if_neg hz]
      have hf := h'.fillBuf_eq
      simp only [hf, List.drop_length, List.idxOf?_nil, h'.consume_eq, List.length_nil]
      have h'' := h'.consumed 0
      refine ⟨_, by rw [if_pos trivial, u1, List.append_nil]; rfl, ?_⟩
      have := h''.fillBuf_eq
      simp only [List.drop_length, List.drop_zero, List.length_nil] at this
      rw [u1, List.drop_length]
      exact this

/-- C17, `read_to_end`: all readable bytes, whatever positive sizes the destination vector
offers; afterwards the ring is empty. -/
theorem C17_ring_read_to_end (t : Target) (k : Kernel) (r : Ring) (n : Nat) (h : RingAt t k r n)
    (q : List Byte) (hq : r.fillBuf t k = .ok q) (sz : Nat → Nat) (hsz : ∀ i, 0 < sz i)
    (fuel : Nat) (hf : q.length < fuel) :
    ∃ r', Ring.readToEnd t k fuel sz r [] = .ok (some (r', q)) ∧ r'.fillBuf t k = .ok [] := by
  obtain ⟨o, s, h1, h2, h3, h4⟩ := h.inv
  rw [h1.fillBuf_eq] at hq
  injection hq with hq
  subst hq
  have main : ∀ (fuel : Nat) (sz : Nat → Nat) (r : Ring) (s : Spec.Win) (acc : List Byte),
      (∀ i, 0 < sz i) → RingRep t k r o s → s.q.length < fuel →
      ∃ r', Ring.readToEnd t k fuel sz r acc = .ok (some (r', acc ++ s.q)) ∧
        r'.fillBuf t k = .ok [] := by
    intro fuel
    induction fuel with
    | zero => intro _ _ _ _ _ _ hf; omega
    | succ fuel ih =>
      intro sz r s acc hsz hr hf
      obtain ⟨r', e, -, h', -⟩ := hr.read_eq (sz 0)
      simp only [Ring.readToEnd, e, bind, Except.bind]
      by_cases hb : (s.q.take (sz 0)).length = 0
      · have hb' : s.q = [] := by
          apply List.eq_nil_of_length_eq_zero
          have := hsz 0
          rw [List.length_take] at hb; omega
        rw [if_pos hb]
        refine ⟨r', by simp [hb', pure, Except.pure], ?_⟩
        rw [h'.fillBuf_eq]; simp [hb']
      · rw [if_neg hb]
        have h0 := hsz 0
        obtain ⟨r2, e2, f2⟩ := ih (fun i => sz (i + 1)) r' _ (acc ++ s.q.take (sz 0))
          (fun i => hsz _) h' (by
            simp only [List.length_drop]
            rw [List.length_take] at hb; omega)
        refine ⟨r2, ?_, f2⟩
        rw [e2, List.append_assoc, List.take_append_drop]
  obtain ⟨r', e, f⟩ := main fuel sz r s [] hsz h1 hf
  exact ⟨r', by rw [e, List.nil_append], f⟩

-- a reachable ring with something to read, and a limit on the number of rounds
example : ∃ k r n q fuel, RingAt ⟨.w64, true⟩ k r n ∧ r.fillBuf ⟨.w64, true⟩ k = .ok q ∧
    q ≠ [] ∧ q.length < fuel := by
  obtain ⟨k, r, h, hq⟩ := demo_ringAt
  exact ⟨k, r, 3, _, 4, h, hq, by simp, by simp⟩

/-! ### C18 -/

/-- C18: `chunk()` is all readable bytes and as long as `remaining()`; `chunk_mut()` has
`remaining_mut()` bytes. -/
theorem C18_ring_chunks (t : Target) (k : Kernel) (r : Ring) (n : Nat) (h : RingAt t k r n) :
    ∃ q a w, r.fillBuf t k = .ok q ∧ r.chunk t k = .ok q ∧ r.remaining t = .ok q.length ∧
      r.chunkMut t = .ok (a, w) ∧ r.remainingMut t = .ok w ∧
      q.length + w = SeqWrite.writeCapacity r := by
  obtain ⟨o, s, h1, h2, h3, h4⟩ := h.inv
  have hl := h1.len_eq
  have hlt := h1.len_lt
  refine ⟨s.q, r.ptr + r.wpos % r.len, s.spare.length, h1.fillBuf_eq, h1.fillBuf_eq, h1.readLen_eq,
    ?_, h1.writeLen_eq, by simp only [SeqWrite.writeCapacity]; omega⟩
  rw [Ring.chunkMut, h1.asWriteSlice_eq, Nat.min_eq_left (by simp only [Target.usizeMax]; omega)]

/-- C18: `copy_to_slice` returns the next `m` bytes exactly when there are enough, otherwise
panics.  One round of the loop always suffices. -/
theorem C18_ring_copy_to_slice (t : Target) (k : Kernel) (r : Ring) (n : Nat)
    (h : RingAt t k r n) (q : List Byte) (hq : r.fillBuf t k = .ok q) (m fuel : Nat) :
    (m ≤ q.length → ∃ r', r.copyToSlice t k (fuel + 1) m = .ok (some (r', q.take m)) ∧
      r'.fillBuf t k = .ok (q.drop m)) ∧
    (q.length < m → r.copyToSlice t k (fuel + 1) m = .error .panic) := by
  obtain ⟨o, s, h1, h2, h3, h4⟩ := h.inv
  rw [h1.fillBuf_eq] at hq
  injection hq with hq
  subst hq
  simp only [Ring.copyToSlice, Ring.remaining, h1.readLen_eq, bind, Except.bind]
  constructor
  · intro hm
    rw [if_neg (by omega)]
    cases m with
    | zero => exact ⟨r, by simp [Ring.copyLoop], by simp [h1.fillBuf_eq]⟩
    | succ m =>
      have h' := h1.consumed (m + 1)
      have hmin : min s.q.length (m + 1) = m + 1 := by omega
      have hc : r.chunk t k = .ok s.q := h1.fillBuf_eq
      simp only [Ring.copyLoop, hc, bind, Except.bind, hmin, Ring.advance, h1.consume_eq,
        Nat.sub_self, List.nil_append]
      refine ⟨_, ?_, h'.fillBuf_eq⟩
      cases fuel <;> simp
  · intro hm
    rw [if_pos hm]
    rfl

/-- C18: `put_slice` appends its argument exactly when it fits, otherwise panics.  One round of
the loop always suffices. -/
theorem C18_ring_put_slice (t : Target) (k : Kernel) (r : Ring) (n : Nat)
    (h : RingAt t k r n) (q : List Byte) (w : Nat) (hq : r.fillBuf t k = .ok q)
    (hw : r.writeLen t = .ok w) (src : List Byte) (fuel : Nat)
    (below : n + min src.length w < posBound t (SeqWrite.writeCapacity r)) :
    (src.length ≤ w → ∃ k' r', Ring.putSlice t (fuel + 1) k r src = .ok (some (k', r')) ∧
      r'.fillBuf t k' = .ok (q ++ src)) ∧
    (w < src.length → Ring.putSlice t (fuel + 1) k r src = .error .panic) := by
  obtain ⟨o, s, h1, h2, h3, h4⟩ := h.inv
  have hl := h1.len_eq
  have hlt := h1.len_lt
  rw [h1.fillBuf_eq] at hq
  rw [h1.writeLen_eq] at hw
  injection hq with hq
  injection hw with hw
  subst hq hw
  simp only [Ring.putSlice, Ring.remainingMut, h1.writeLen_eq, bind, Except.bind]
  constructor
  · intro hm
    rw [if_neg (by omega)]
    cases src with
    | nil => exact ⟨k, r, by simp [Ring.putLoop], by simp [h1.fillBuf_eq]⟩
    | cons b bs =>
      have hc : r.chunkMut t = .ok (r.ptr + r.wpos % r.len, s.spare.length) := by
        rw [Ring.chunkMut, h1.asWriteSlice_eq,
          Nat.min_eq_left (by simp only [Target.usizeMax]; omega)]
      have hmin : min s.spare.length (b :: bs).length = (b :: bs).length := by omega
      obtain ⟨k', e, sd, d, h'⟩ := h1.poked (b :: bs) hm
      have hsl : ((b :: bs) ++ s.spare.drop (b :: bs).length).length = s.spare.length := by
        simp at hm ⊢; omega
      have hp : PosOk t r.len (r.wpos + min (b :: bs).length s.spare.length) :=
        posOk_of_lt (by rw [h1.total, h2]; exact below)
      have hf := h'.feed_eq (b :: bs).length (by rw [hsl]; exact hp.1)
      have hf' := h'.fed (b :: bs).length (by rw [hsl]; exact hp)
      simp only [Ring.putLoop, hc, bind, Except.bind, hmin, List.take_length, e, Ring.advanceMut, hf,
        List.drop_length]
      exact ⟨k', _, rfl, by rw [hf'.fillBuf_eq, List.take_left]⟩
  · intro hm
    rw [if_pos hm]
    rfl

end Vmap
