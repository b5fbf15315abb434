import Verif.Proofs.RingUse
import Verif.Proofs.Darwin
/-
Property theorems C07–C13, C27, C71: `Ring`.
-/
namespace Vmap
open Spec Kernel

/-! ### C07 -/

/-- C07: after `Ring::new`, every history of FIFO calls returns exactly what a bounded FIFO queue
of the ring's capacity returns, without panics or faults; the readable bytes at the end are
the queue's. -/
theorem C07_ring_fifo (t : Target) (k0 k : Kernel) (wf : Wf t k0) (hint : Nat)
    (hh : hint < t.lim) (r : Ring) (hr : Ring.new t k0 hint = .ok (k, .ok r))
    (ops : List RingOp) (q : List Byte) (rs : List Resp)
    (spec : fifoRun (SeqWrite.writeCapacity r) [] ops = some (q, rs))
    (below : fifoBelow (posBound t (SeqWrite.writeCapacity r)) (SeqWrite.writeCapacity r) 0 [] ops) :
    ∃ k' r', r.execAll t k ops = .ok ((k', r'), rs) ∧ r'.fillBuf t k' = .ok q := by
  obtain ⟨o, h, -, -⟩ := ringRep_new wf hh hr
  obtain ⟨b, e1, e2⟩ := fifo_run ops (freshWin r.len) (cap := r.len) (bound := posBound t r.len)
    (by simp [freshWin, Win.all]) spec below
  obtain ⟨k', r', e, h', -⟩ := ring_run ops h b
  exact ⟨k', r', by rw [e, e2], by rw [h'.fillBuf_eq, e1]⟩

-- an 8 KiB ring: write 3 bytes, read 2, write 1, look
example : Wf ⟨.w64, true⟩ (demo 0) ∧
    ∃ k r, Ring.new ⟨.w64, true⟩ (demo 0) 5000 = .ok (k, .ok r) ∧
    fifoRun (SeqWrite.writeCapacity r) [] [.write [1, 2, 3], .read 2, .write [4], .readSlice 9] =
      some ([3, 4], [.num 3, .bytes [1, 2], .num 1, .bytes [3, 4]]) ∧
    fifoBelow (posBound ⟨.w64, true⟩ (SeqWrite.writeCapacity r)) (SeqWrite.writeCapacity r) 0 []
      [.write [1, 2, 3], .read 2, .write [4], .readSlice 9] := by
  refine ⟨demo_wf 0, ?_⟩
  refine ⟨_, _, rfl, rfl, ?_⟩
  have h : ∀ cap, cap = 8192 → fifoBelow (posBound ⟨.w64, true⟩ cap) cap 0 []
      [.write [1, 2, 3], .read 2, .write [4], .readSlice 9] := by
    rintro _ rfl
    simp [fifoBelow, fifoStep, fifoAdded, posBound, Target.lim, Width.bits, lim64]
  exact h _ rfl

/-- C07, one call at a time, with arbitrary other activity in between: a reachable ring has
contents `q`, and every FIFO call on it answers and changes the contents as the queue does. -/
theorem C07_ring_step (t : Target) (k : Kernel) (r : Ring) (n : Nat) (h : RingAt t k r n) :
    ∃ q w, r.fillBuf t k = .ok q ∧ r.writeLen t = .ok w ∧
      (∀ op q' x, fifoStep (SeqWrite.writeCapacity r) q op = some (q', x) →
        passed op n w < posBound t (SeqWrite.writeCapacity r) →
        ∃ k' r', r.exec t k op = .ok ((k', r'), x) ∧ r'.fillBuf t k' = .ok q') ∧
      (∀ k', Apart t k k' r.ptr r.len → r.fillBuf t k' = .ok q) := by
  obtain ⟨o, s, h1, h2, h3, h4⟩ := h.inv
  refine ⟨s.q, s.spare.length, h1.fillBuf_eq, h1.writeLen_eq, ?_, ?_⟩
  · intro op q' x hop hp
    have hc : s.all.length = r.len := by simp [Win.all, h1.len_eq]
    obtain ⟨e1, e2, -, -⟩ := fifo_of_win hc hop
    have ht : (s.step op).1.total = passed op n s.spare.length := by
      cases op <;> simp [Win.step, passed, h2]
    obtain ⟨k', r', e, h', -⟩ := ring_step h1 op (by rw [ht]; exact hp)
    exact ⟨k', r', by rw [e, e2], by rw [h'.fillBuf_eq, e1]⟩
  · intro k' ap
    obtain ⟨m, d⟩ := h1.mirror.apart h4 ap
    have h' : RingRep t k' r o s :=
      ⟨m, by rw [win_congr d]; exact h1.all, h1.total, h1.qlen, h1.pos⟩
    exact h'.fillBuf_eq

/-- A reachable ring for the examples: 4 KiB ring, three bytes written. -/
theorem demo_ringAt : ∃ k r, RingAt ⟨.w64, true⟩ k r 3 ∧ r.fillBuf ⟨.w64, true⟩ k = .ok [1, 2, 3] := by
  obtain ⟨k, r, hr⟩ : ∃ k r, Ring.new ⟨.w64, true⟩ (demo 0) 5000 = .ok (k, .ok r) := ⟨_, _, rfl⟩
  have h0 := RingAt.new (demo_wf 0) (by simp [Target.lim, Width.bits]) hr
  obtain ⟨hm, hl0, hw⟩ := C15_C25_ring_new _ _ _ (demo_wf 0) _ (by simp [Target.lim, Width.bits]) r hr
  have hcap := hm.capacity.2.1
  have hd : (12 : Nat) < posBound ⟨.w64, true⟩ r.len := by
    unfold posBound; split <;> simp [lim64, Target.lim, Width.bits]
  obtain ⟨o, s, h1, h2, h3, h4⟩ := h0.inv
  have hsp := h1.writeLen_eq
  rw [hw] at hsp
  injection hsp with hsp
  have hq := h1.readLen_eq
  rw [hl0] at hq
  injection hq with hq
  have hmin : min [(1 : Byte), 2, 3].length s.spare.length = 3 := by simp; omega
  obtain ⟨k', r', -, e, h', -⟩ := h1.write_eq [1, 2, 3] (by rw [hmin]; omega)
  have hp : passed (.write [1, 2, 3]) 0 r.len = 3 := by simp only [passed]; rw [hsp, hmin]
  have := RingAt.call h0 hw (op := .write [1, 2, 3]) (by
    rw [hp]; show 3 < posBound _ r.len; omega) e
  rw [hp] at this
  refine ⟨k', r', this, ?_⟩
  rw [h'.fillBuf_eq]
  simp only [Win.step, hmin]
  rw [List.eq_nil_of_length_eq_zero hq.symm]
  rfl

example : ∃ k r n, RingAt ⟨.w64, true⟩ k r n := by
  obtain ⟨k, r, h, -⟩ := demo_ringAt
  exact ⟨k, r, 3, h⟩

/-! ### C08 -/

/-- C08: lengths add up to the capacity, `is_empty`/`is_full` agree with them, and no call
changes the capacity. -/
theorem C08_ring_lengths (t : Target) (k : Kernel) (r : Ring) (n : Nat) (h : RingAt t k r n) :
    ∃ a b, r.readLen t = .ok a ∧ r.writeLen t = .ok b ∧ a + b = SeqWrite.writeCapacity r ∧
      isEmpty t r = .ok (decide (a = 0)) ∧ isFull t r = .ok (decide (b = 0)) ∧
      (∀ op, passed op n b < posBound t (SeqWrite.writeCapacity r) →
        ∃ k' r' x, r.exec t k op = .ok ((k', r'), x) ∧
          SeqWrite.writeCapacity r' = SeqWrite.writeCapacity r) := by
  obtain ⟨o, s, h1, h2, h3, h4⟩ := h.inv
  refine ⟨_, _, h1.readLen_eq, h1.writeLen_eq, ?_, ?_, ?_, ?_⟩
  · have := h1.len_eq
    simp only [SeqWrite.writeCapacity]; omega
  · simp only [isEmpty, SeqRead.readLen, h1.readLen_eq, bind, Except.bind, pure, Except.pure]
    congr 1
  · simp only [isFull, SeqWrite.writeLen, h1.writeLen_eq, bind, Except.bind, pure, Except.pure]
    congr 1
  · intro op hp
    have ht : (s.step op).1.total = passed op n s.spare.length := by
      cases op <;> simp [Win.step, passed, h2]
    obtain ⟨k', r', e, -, -, p2, -⟩ := ring_step h1 op (by rw [ht]; exact hp)
    exact ⟨k', r', _, e, p2⟩

/-! ### C09 -/

/-- C09: each slice is one address range inside the double mapping, all its addresses are usable
and hold pairwise different memory, and the read slice is separate from the write slice. -/
theorem C09_ring_slices (t : Target) (k : Kernel) (r : Ring) (n : Nat) (h : RingAt t k r n)
    (m1 m2 : Nat) :
    ∃ a la b lb, asReadSlice t r m1 = .ok (a, la) ∧ asWriteSlice t r m2 = .ok (b, lb) ∧
      (r.readLen t).map (min · m1) = .ok la ∧ (r.writeLen t).map (min · m2) = .ok lb ∧
      (r.ptr ≤ a ∧ a + la ≤ r.ptr + 2 * r.len) ∧ (r.ptr ≤ b ∧ b + lb ≤ r.ptr + 2 * r.len) ∧
      (∀ i, i < la → k.Usable (a + i)) ∧ (∀ j, j < lb → k.Usable (b + j)) ∧
      (∀ i j, i < la → j < la → i ≠ j → k.Separate (a + i) (a + j)) ∧
      (∀ i j, i < lb → j < lb → i ≠ j → k.Separate (b + i) (b + j)) ∧
      (∀ i j, i < la → j < lb → k.Separate (b + j) (a + i) ∧ k.Separate (a + i) (b + j)) := by
  obtain ⟨o, s, h1, h2, h3, h4⟩ := h.inv
  have hl := h1.len_eq
  have hq := h1.qlen
  have hp := h1.mirror.len_pos
  have ma := Nat.mod_lt r.rpos hp
  have mb := Nat.mod_lt r.wpos hp
  refine ⟨_, _, _, _, h1.asReadSlice_eq m1, h1.asWriteSlice_eq m2, ?_, ?_, ?_, ?_, ?_, ?_, ?_, ?_,
    ?_⟩
  · rw [h1.readLen_eq]; rfl
  · rw [h1.writeLen_eq]; rfl
  · omega
  · omega
  · exact fun i hi => (h1.shows_read i (by omega)).usable
  · exact fun j hj => (h1.shows_write j (by omega)).usable
  · intro i j hi hj hij
    exact (h1.shows_read i (by omega)).separate (h1.shows_read j (by omega))
      (fun e => hij (mod_inj (by omega) (by omega) e))
  · intro i j hi hj hij
    exact (h1.shows_write i (by omega)).separate (h1.shows_write j (by omega))
      (fun e => hij (mod_inj (by omega) (by omega) e))
  · intro i j hi hj
    have hne : (r.wpos + j) % r.len ≠ (r.rpos + i) % r.len := by
      intro e
      rw [← hq, Nat.add_assoc] at e
      have := mod_inj (len := r.len) (by omega) (by omega) e
      omega
    exact ⟨(h1.shows_write j (by omega)).separate (h1.shows_read i (by omega)) hne,
      (h1.shows_read i (by omega)).separate (h1.shows_write j (by omega)) (Ne.symm hne)⟩

example : ∃ k r n q w, RingAt ⟨.w64, true⟩ k r n ∧ r.fillBuf ⟨.w64, true⟩ k = .ok q ∧
    r.writeLen ⟨.w64, true⟩ = .ok w ∧ q ≠ [] := by
  obtain ⟨k, r, h, hq⟩ := demo_ringAt
  obtain ⟨_, b, -, hb, -⟩ := C08_ring_lengths _ _ _ _ h
  exact ⟨k, r, 3, _, b, h, hq, hb, by simp⟩

/-! ### C10–C13 -/

/-- C10: `write(buf)` stores the leading `min(buf.len(), write_len())` bytes after the unread
ones, which stay, and changes no byte of memory outside the ring. -/
theorem C10_ring_write (t : Target) (k : Kernel) (r : Ring) (n : Nat) (h : RingAt t k r n)
    (q : List Byte) (w : Nat) (hq : r.fillBuf t k = .ok q) (hw : r.writeLen t = .ok w)
    (buf : List Byte)
    (below : n + min buf.length w < posBound t (SeqWrite.writeCapacity r)) :
    ∃ k' r', r.write t k buf = .ok (k', r', min buf.length w) ∧
      r'.fillBuf t k' = .ok (q ++ buf.take w) ∧
      (∀ a, ¬ (r.ptr ≤ a ∧ a < r.ptr + 2 * SeqWrite.writeCapacity r) → k'.load a = k.load a) ∧
      SameButData k k' := by
  obtain ⟨o, s, h1, h2, h3, h4⟩ := h.inv
  rw [h1.fillBuf_eq] at hq
  rw [h1.writeLen_eq] at hw
  injection hq with hq
  injection hw with hw
  subst hq hw
  obtain ⟨k', r', e, -, h', -, -, sd, d⟩ := h1.write_eq buf (by rw [h2]; exact below)
  refine ⟨k', r', e, ?_, fun a ha => h3.load h4 h1.mirror sd d a ha, sd⟩
  rw [h'.fillBuf_eq]
  simp only [Win.step]
  rw [show buf.take (min buf.length s.spare.length) = buf.take s.spare.length by
    rw [List.take_eq_take_iff]; omega]

/-- C11: `consume(m)` drops exactly `min(m, read_len())` bytes, for every `m`. -/
theorem C11_ring_consume (t : Target) (k : Kernel) (r : Ring) (n : Nat) (h : RingAt t k r n)
    (q : List Byte) (w : Nat) (hq : r.fillBuf t k = .ok q) (hw : r.writeLen t = .ok w) (m : Nat) :
    ∃ r', r.consume t m = .ok r' ∧ r'.fillBuf t k = .ok (q.drop m) ∧
      r'.writeLen t = .ok (w + min m q.length) := by
  obtain ⟨o, s, h1, h2, h3, h4⟩ := h.inv
  rw [h1.fillBuf_eq] at hq
  rw [h1.writeLen_eq] at hw
  injection hq with hq
  injection hw with hw
  subst hq hw
  have h' := h1.consumed m
  refine ⟨_, h1.consume_eq m, h'.fillBuf_eq, ?_⟩
  rw [h'.writeLen_eq]
  simp

/-- C11, C12: `feed(m)` appends exactly the first `min(m, write_len())` bytes of the write slice
to the readable bytes, for every `m`. -/
theorem C11_C12_ring_feed (t : Target) (k : Kernel) (r : Ring) (n : Nat) (h : RingAt t k r n)
    (q sp : List Byte) (hq : r.fillBuf t k = .ok q)
    (hs : writeSliceBytes t k r t.usizeMax = .ok sp) (m : Nat)
    (below : n + min m sp.length < posBound t (SeqWrite.writeCapacity r)) :
    ∃ r', r.feed t m = .ok r' ∧ r'.fillBuf t k = .ok (q ++ sp.take m) ∧
      writeSliceBytes t k r' t.usizeMax = .ok (sp.drop m) := by
  obtain ⟨o, s, h1, h2, h3, h4⟩ := h.inv
  rw [h1.fillBuf_eq] at hq
  rw [h1.writeSlice_all] at hs
  injection hq with hq
  injection hs with hs
  subst hq hs
  have hp : PosOk t r.len (r.wpos + min m s.spare.length) :=
    posOk_of_lt (by rw [h1.total, h2]; exact below)
  have h' := h1.fed m hp
  exact ⟨_, h1.feed_eq m hp.1, h'.fillBuf_eq, h'.writeSlice_all⟩

/-- C12: storing into the write slice changes the write slice only: not the readable bytes, and no
byte of memory outside the ring. -/
theorem C12_ring_poke (t : Target) (k : Kernel) (r : Ring) (n : Nat) (h : RingAt t k r n)
    (q sp : List Byte) (hq : r.fillBuf t k = .ok q)
    (hs : writeSliceBytes t k r t.usizeMax = .ok sp) (bs : List Byte) :
    ∃ k', poke t k r bs = .ok k' ∧ r.fillBuf t k' = .ok q ∧
      writeSliceBytes t k' r t.usizeMax = .ok (bs.take sp.length ++ sp.drop bs.length) ∧
      (∀ a, ¬ (r.ptr ≤ a ∧ a < r.ptr + 2 * SeqWrite.writeCapacity r) → k'.load a = k.load a) := by
  obtain ⟨o, s, h1, h2, h3, h4⟩ := h.inv
  rw [h1.fillBuf_eq] at hq
  rw [h1.writeSlice_all] at hs
  injection hq with hq
  injection hs with hs
  subst hq hs
  have hpos : s.total < posBound t r.len := by
    have := h1.pos
    rw [h1.total] at this
    unfold posBound
    split
    · exact this.1
    · rename_i hn
      exact this.2.resolve_left hn
  obtain ⟨k', r', e, h', -, -, sd, d⟩ := ring_step h1 (.poke bs) hpos
  simp only [Ring.exec, bind, Except.bind] at e
  cases hp : poke t k r bs with
  | error f => rw [hp] at e; cases e
  | ok k1 =>
    rw [hp] at e
    simp only [pure, Except.pure, Except.ok.injEq, Prod.mk.injEq] at e
    obtain ⟨⟨e1, e2⟩, -⟩ := e
    subst e1 e2
    exact ⟨k1, rfl, h'.fillBuf_eq, h'.writeSlice_all, fun a ha => h3.load h4 h1.mirror sd d a ha⟩

/-- C13: after `clear()` the ring is empty with its whole capacity writable; it is a reachable
ring with a fresh byte count — so everything proved of new rings holds of it — and its fields are
those `Ring::new` starts with.  (`clear` has no access to memory: its model does not even
take the kernel.) -/
theorem C13_ring_clear (t : Target) (k : Kernel) (r : Ring) (n : Nat) (h : RingAt t k r n) :
    RingAt t k r.clear 0 ∧ r.clear = ⟨r.ptr, r.len, 0, 0⟩ ∧
      r.clear.fillBuf t k = .ok [] ∧ r.clear.readLen t = .ok 0 ∧
      r.clear.writeLen t = .ok (SeqWrite.writeCapacity r) ∧
      SeqWrite.writeCapacity r.clear = SeqWrite.writeCapacity r := by
  obtain ⟨o, s, h1, h2, h3, h4⟩ := h.inv
  have hl := h1.len_eq
  have hc := h1.cleared
  have hpos : 0 < posBound t r.len := by
    have := h1.len_lt
    unfold posBound; split
    · simp [lim64]
    · omega
  refine ⟨RingAt.call (op := .clear) h h1.writeLen_eq hpos rfl, rfl, hc.fillBuf_eq, hc.readLen_eq,
    ?_, rfl⟩
  rw [hc.writeLen_eq]
  simp [Win.step, Win.all, rotate, SeqWrite.writeCapacity]
  omega

/-! ### C27 -/

/-- Unmapping a mirrored range. -/
theorem unmapRing_mirror {t : Target} {k : Kernel} {ptr len : Nat} {o : Obj} (w : Wf t k)
    (m : k.Mirror t ptr len o) :
    ∃ k', Posix.unmapRing t k ptr len = .ok (k', .ok ()) ∧ Wf t k' ∧ KeepsObjects k k' ∧
      k'.fds = k.fds ∧
      (∀ p, ptr ≤ p * k.page ∧ p * k.page < ptr + 2 * len → k'.pt p = none) ∧
      (∀ p, ¬ (ptr ≤ p * k.page ∧ p * k.page < ptr + 2 * len) → k'.pt p = k.pt p) := by
  have hlim : 2 * len < t.lim := by
    have h1 := m.fits
    have h2 := m.len_pos
    obtain ⟨e, he, -⟩ := m.shows' 0 (by omega)
    have h3 := w.addr _ e he
    have h4 : 0 < ptr := by
      apply Nat.pos_of_ne_zero
      intro h0
      rw [h0, Nat.zero_add, Nat.zero_div] at h3
      omega
    omega
  have hpp := w.page_pos
  obtain ⟨c, hc⟩ := m.ptr_dvd
  obtain ⟨d, hd⟩ := m.len_dvd
  have hdiv : ptr / k.page = c := by rw [hc, Nat.mul_div_cancel_left _ hpp]
  have hpages : k.pages (2 * len) = 2 * d := by
    have h1 : 2 * len = 2 * d * k.page := by
      rw [hd, Nat.mul_assoc, Nat.mul_comm d]
    have h2 := pages_mul hpp (len := 2 * len) ⟨2 * d, by rw [h1, Nat.mul_comm]⟩
    exact Nat.eq_of_mul_eq_mul_right hpp (h2.trans h1)
  have hmun := munmap_eq (k := k) (addr := ptr) (len := 2 * len)
    (by have := m.len_pos; omega) (by rw [hc, Nat.mul_mod_right])
  rw [hdiv, hpages] at hmun
  have hrange : ∀ p, (ptr ≤ p * k.page ∧ p * k.page < ptr + 2 * len) ↔
      (c ≤ p ∧ p < c + 2 * d) := by
    intro p
    have e1 : ptr = c * k.page := by rw [hc, Nat.mul_comm]
    have e2 : ptr + 2 * len = (c + 2 * d) * k.page := by
      rw [e1, hd, Nat.add_mul, Nat.mul_assoc, Nat.mul_comm d]
    rw [e2, e1]
    constructor
    · rintro ⟨a, b⟩
      exact ⟨Nat.le_of_mul_le_mul_right a hpp, Nat.lt_of_mul_lt_mul_right b⟩
    · rintro ⟨a, b⟩
      exact ⟨Nat.mul_le_mul_right _ a, Nat.mul_lt_mul_of_pos_right b hpp⟩
  have hw := w.munmap ptr (2 * len)
  rw [hmun] at hw
  refine ⟨_, ?_, hw, ?_, rfl, ?_, ?_⟩
  · simp only [Posix.unmapRing, Posix.mulU_ok hlim, bind, Except.bind, pure, Except.pure, Unix.unmap,
      hmun]
    rfl
  · constructor <;> first | rfl | exact Nat.le_refl _ | (intro _ _; rfl)
  · intro p hp
    exact if_pos ((hrange p).mp hp)
  · intro p hp
    exact if_neg (fun q => hp ((hrange p).mpr q))

/-- Releasing a circular mapping on macOS. -/
theorem darwin_unmapRing_mirror {t : Target} {k : Kernel} {ptr len : Nat} {o : Obj} (w : Wf t k)
    (m : k.Mirror t ptr len o) :
    ∃ k', Darwin.unmapRing t k ptr len = .ok (k', .ok ()) ∧ Wf t k' ∧ KeepsObjects k k' ∧
      k'.fds = k.fds ∧
      (∀ p, ptr ≤ p * k.page ∧ p * k.page < ptr + 2 * len → k'.pt p = none) ∧
      (∀ p, ¬ (ptr ≤ p * k.page ∧ p * k.page < ptr + 2 * len) → k'.pt p = k.pt p) ∧
      k'.log = ⟨.vmDeallocate ptr (2 * len), .ok 0⟩ :: k.log := by
  have hpp := w.page_pos
  have h0 := m.len_pos
  obtain ⟨c, hc⟩ := m.ptr_dvd
  obtain ⟨d, hd⟩ := m.len_dvd
  have hlim : ptr + 2 * len < t.lim := by
    obtain ⟨e, he, -⟩ := m.shows' (2 * len - 1) (by omega)
    have h3 := (w.addr _ e he).2
    have h4 := Nat.lt_div_mul_add (a := ptr + (2 * len - 1)) (b := k.page) hpp
    rw [Nat.add_mul] at h3
    omega
  have hm : mulU t 2 len = .ok (2 * len) := Posix.mulU_ok (by omega)
  have hdiv : ptr / k.tock.page = c := by
    show ptr / k.page = c
    rw [hc, Nat.mul_div_cancel_left _ hpp]
  have hpages : k.tock.pages (2 * len) = 2 * d := by
    have := pages_of (k := k.tock) hpp (2 * d)
    rw [show 2 * d * k.tock.page = 2 * len by
      show 2 * d * k.page = 2 * len
      rw [hd, Nat.mul_assoc, Nat.mul_comm d]] at this
    exact this
  have hrange : ∀ p, (ptr ≤ p * k.page ∧ p * k.page < ptr + 2 * len) ↔
      (c ≤ p ∧ p < c + 2 * d) := by
    intro p
    have e1 : ptr = c * k.page := by rw [hc, Nat.mul_comm]
    have e2 : ptr + 2 * len = (c + 2 * d) * k.page := by
      rw [e1, hd, Nat.add_mul, Nat.mul_assoc, Nat.mul_comm d]
    rw [e2, e1]
    constructor
    · rintro ⟨a, b⟩
      exact ⟨Nat.le_of_mul_le_mul_right a hpp, Nat.lt_of_mul_lt_mul_right b⟩
    · rintro ⟨a, b⟩
      exact ⟨Nat.mul_le_mul_right _ a, Nat.mul_lt_mul_of_pos_right b hpp⟩
  have he : k.vmDeallocate t ptr (2 * len) =
      ({ k.tock.clearRange c (2 * d) with
          log := ⟨.vmDeallocate ptr (2 * len), .ok 0⟩ :: k.log }, .ok ()) := by
    have e : vmDeallocateCore t k ptr (2 * len) = (k.tock.clearRange c (2 * d), .ok ()) := by
      unfold vmDeallocateCore
      simp only [hdiv, hpages]
      exact if_pos hlim
    simp only [vmDeallocate, record, e]
    rfl
  refine ⟨{ k.tock.clearRange c (2 * d) with log := ⟨.vmDeallocate ptr (2 * len), .ok 0⟩ :: k.log },
    by simp only [Darwin.unmapRing, hm, bind, Except.bind, he, pure, Except.pure], ?_, ?_, rfl, ?_, ?_, rfl⟩
  · refine w.sub rfl ?_ (fun _ _ h => h) (fun _ _ h => h) (Nat.le_refl _) (Nat.le_refl _)
    intro q e hq
    have hq : (if c ≤ q ∧ q < c + 2 * d then none else k.pt q) = some e := hq
    split at hq
    · cases hq
    · exact hq
  · constructor <;> first | rfl | exact Nat.le_refl _ | (intro _ _; rfl)
  · intro p hp
    exact if_pos ((hrange p).mp hp)
  · intro p hp
    exact if_neg (fun q => hp ((hrange p).mpr q))

/-- Releasing a circular mapping on any Unix. -/
theorem os_unmapRing_mirror {t : Target} {k : Kernel} {ptr len : Nat} {o : Obj} (w : Wf t k)
    (m : k.Mirror t ptr len o) :
    ∃ k', Os.unmapRing t k ptr len = .ok (k', .ok ()) ∧ Wf t k' ∧ KeepsObjects k k' ∧
      k'.fds = k.fds ∧
      (∀ p, ptr ≤ p * k.page ∧ p * k.page < ptr + 2 * len → k'.pt p = none) ∧
      (∀ p, ¬ (ptr ≤ p * k.page ∧ p * k.page < ptr + 2 * len) → k'.pt p = k.pt p) := by
  unfold Os.unmapRing
  split
  · obtain ⟨k', h1, h2, h3, h4, h5, h6, -⟩ := darwin_unmapRing_mirror w m
    exact ⟨k', h1, h2, h3, h4, h5, h6⟩
  · exact unmapRing_mirror w m

/-- What dropping a ring that occupies `[ptr, ptr+2*cap)` must do. -/
structure Released (t : Target) (k k' : Kernel) (ptr cap : Nat) : Prop where
  gone : ∀ p, ptr ≤ p * k.page ∧ p * k.page < ptr + 2 * cap → k'.pt p = none
  others : ∀ p, ¬ (ptr ≤ p * k.page ∧ p * k.page < ptr + 2 * cap) → k'.pt p = k.pt p
  fds : k'.fds = k.fds
  keeps : KeepsObjects k k'
  wf : Wf t k'

/-- C27 for `Ring`: dropping it after any history unmaps exactly its `2 * capacity` bytes. -/
theorem C27_ring_drop (t : Target) (k : Kernel) (r : Ring) (n : Nat) (h : RingAt t k r n) :
    ∃ k', r.drop t k = .ok k' ∧ Released t k k' r.ptr (SeqWrite.writeCapacity r) := by
  obtain ⟨o, s, h1, h2, h3, h4⟩ := h.inv
  obtain ⟨k', e, w, kp, fd, g1, g2⟩ := os_unmapRing_mirror h4 h1.mirror
  exact ⟨k', by simp only [Ring.drop, e, bind, Except.bind, pure, Except.pure],
    ⟨g1, g2, fd, kp, w⟩⟩

/-- C27 for `InfiniteRing`. -/
theorem C27_infinite_drop (t : Target) (k : Kernel) (r : InfiniteRing) (n : Nat)
    (h : InfAt t k r n) :
    ∃ k', r.drop t k = .ok k' ∧ Released t k k' r.ptr (SeqWrite.writeCapacity r) := by
  obtain ⟨o, s, h1, h2, h3, h4⟩ := h.inv
  obtain ⟨k', e, w, kp, fd, g1, g2⟩ := os_unmapRing_mirror h4 h1.mirror
  exact ⟨k', by simp only [InfiniteRing.drop, e, bind, Except.bind, pure, Except.pure],
    ⟨g1, g2, fd, kp, w⟩⟩

/-- C27, whole life: create a ring, make any calls, drop it — every mapping and every
descriptor is what it was before. -/
theorem C27_ring_lifecycle (t : Target) (k0 k : Kernel) (wf : Wf t k0) (hint : Nat)
    (hh : hint < t.lim) (r : Ring) (hr : Ring.new t k0 hint = .ok (k, .ok r))
    (ops : List RingOp)
    (below : (Win.mk (List.replicate (SeqWrite.writeCapacity r) 0) [] 0).below
      (posBound t (SeqWrite.writeCapacity r)) ops) :
    ∃ k1 r1 rs k2, r.execAll t k ops = .ok ((k1, r1), rs) ∧ r1.drop t k1 = .ok k2 ∧
      k2.pt = k0.pt ∧ k2.fds = k0.fds ∧ Wf t k2 := by
  obtain ⟨o, h, ow, w⟩ := ringRep_new wf hh hr
  obtain ⟨m, -, -⟩ := C15_C25_ring_new t k0 k wf hint hh r hr
  obtain ⟨k1, r1, e, h', p1, p2, sd, d⟩ := ring_run ops h below
  obtain ⟨k2, e2, w2, kp2, fd2, g1, g2⟩ := os_unmapRing_mirror (w.sameButData sd) h'.mirror
  refine ⟨k1, r1, _, k2, e, by simp only [Ring.drop, e2, bind, Except.bind, pure, Except.pure],
    ?_, by rw [fd2, sd.fds, m.fds], w2⟩
  funext p
  rw [p1, p2, sd.page, m.keeps.page] at g1 g2
  by_cases hp : r.ptr ≤ p * k0.page ∧ p * k0.page < r.ptr + 2 * r.len
  · rw [g1 p hp, m.free p hp.1 hp.2]
  · rw [g2 p hp, sd.pt, m.others p hp]

/-! ### C71 -/

/-- Two address ranges of rings do not overlap. -/
def RangesApart (p1 l1 p2 l2 : Nat) : Prop := p1 + 2 * l1 ≤ p2 ∨ p2 + 2 * l2 ≤ p1

theorem mirror_pte {t : Target} {k : Kernel} {ptr len : Nat} {o : Obj} (w : Wf t k)
    (m : k.Mirror t ptr len o) {p : Nat} {e : Pte} (h1 : ptr ≤ p * k.page)
    (h2 : p * k.page < ptr + 2 * len) (he : k.pt p = some e) : e.obj = o ∧ e.copy = none := by
  obtain ⟨e', h3, h4, h5, h6, h7, h8, -⟩ := m.shows' (p * k.page - ptr) (by omega)
  rw [show ptr + (p * k.page - ptr) = p * k.page by omega, Nat.mul_div_cancel _ w.page_pos, he] at h3
  injection h3 with h3
  subst h3
  exact ⟨h8, h7⟩

theorem mirror_first {t : Target} {k : Kernel} {ptr len : Nat} {o : Obj}
    (m : k.Mirror t ptr len o) :
    ∃ p e, p * k.page = ptr ∧ k.pt p = some e ∧ e.obj = o := by
  have h0 := m.len_pos
  obtain ⟨e, h1, h2, h3, h4, h5, h6, -⟩ := m.shows' 0 (by omega)
  refine ⟨_, e, ?_, h1, h6⟩
  rw [Nat.add_zero]
  exact Nat.div_mul_cancel m.ptr_dvd

theorem objs_ne {t : Target} {k : Kernel} {p1 l1 p2 l2 : Nat} {o1 o2 : Obj}
    (ow1 : Owned k p1 l1 o1) (m2 : k.Mirror t p2 l2 o2)
    (hd : RangesApart p1 l1 p2 l2) : o2 ≠ o1 := by
  intro ho
  obtain ⟨p, e, hp, he, hob⟩ := mirror_first m2
  have := ow1 p e he (.inl (by rw [hob, ho]))
  have := m2.len_pos
  unfold RangesApart at hd
  omega

/-- Changing only the memory of another object. -/
theorem apart_of_data {t : Target} {k k' : Kernel} {ptr len : Nat} {o o2 : Obj} (w : Wf t k)
    (m : k.Mirror t ptr len o) (ow : Owned k ptr len o) (hne : o2 ≠ o)
    (sd : SameButData k k') (d : ∀ o', o' ≠ o2 → k'.data o' = k.data o') :
    Apart t k k' ptr len := by
  refine ⟨sd.page, fun _ _ _ _ => pt_kept (by rw [sd.pt]), ?_, ?_, w.sameButData sd⟩
  · intro p e h1 h2 he
    rw [(mirror_pte w m h1 h2 he).1, d o (Ne.symm hne), sd.size]
    exact ⟨rfl, rfl⟩
  · intro p e h1 h2 he q e' he' ho
    rw [(mirror_pte w m h1 h2 he).1] at ho
    rw [sd.pt] at he'
    exact ow q e' he' ho

/-- C71: a call on one ring leaves any other ring reachable, with the same readable bytes. -/
theorem C71_rings_call (t : Target) (k : Kernel) (r1 r2 : Ring) (n1 n2 w2 : Nat)
    (h1 : RingAt t k r1 n1) (h2 : RingAt t k r2 n2)
    (hd : RangesApart r1.ptr r1.len r2.ptr r2.len) (op : RingOp) (hw : r2.writeLen t = .ok w2)
    (below : passed op n2 w2 < posBound t (SeqWrite.writeCapacity r2)) :
    ∃ k' r2' x, r2.exec t k op = .ok ((k', r2'), x) ∧ RingAt t k' r2' (passed op n2 w2) ∧
      RingAt t k' r1 n1 ∧ r1.fillBuf t k' = r1.fillBuf t k ∧
      RangesApart r1.ptr r1.len r2'.ptr r2'.len := by
  obtain ⟨o1, s1, a1, a2, a3, a4⟩ := h1.inv
  obtain ⟨o2, s2, b1, b2, b3, b4⟩ := h2.inv
  have hne := objs_ne a3 b1.mirror hd
  have hw' := hw
  rw [b1.writeLen_eq] at hw'
  injection hw' with hw'
  have ht : (s2.step op).1.total = passed op n2 w2 := by
    cases op <;> simp [Win.step, passed, b2, hw']
  obtain ⟨k', r2', e, h', p1, p2, sd, d⟩ := ring_step b1 op (by rw [ht]; exact below)
  have ap := apart_of_data a4 a1.mirror a3 hne sd d
  obtain ⟨_, _, q1, -, -, q2⟩ := C07_ring_step t k r1 n1 h1
  refine ⟨k', r2', _, e, RingAt.call h2 hw below e, RingAt.other h1 ap, ?_, by rw [p1, p2]; exact hd⟩
  rw [q2 k' ap, q1]

/-- C71: creating another ring leaves a ring reachable with the same readable bytes, and the
two do not overlap. -/
theorem C71_rings_new (t : Target) (k k' : Kernel) (r1 r2 : Ring) (n hint : Nat)
    (h1 : RingAt t k r1 n) (hh : hint < t.lim) (hr : Ring.new t k hint = .ok (k', .ok r2)) :
    RingAt t k' r1 n ∧ r1.fillBuf t k' = r1.fillBuf t k ∧
      RangesApart r1.ptr r1.len r2.ptr r2.len := by
  obtain ⟨o1, s1, a1, a2, a3, a4⟩ := h1.inv
  obtain ⟨m, -, -⟩ := C15_C25_ring_new t k k' a4 hint hh r2 hr
  obtain ⟨o2, m2, f1, f2⟩ := m.mirror
  have hlt : o1 < k.fresh := by
    obtain ⟨p, e, hp, he, ho⟩ := mirror_first a1.mirror
    rw [← ho]; exact (a4.objs p e he).1
  -- a page of the first ring is not a page of the second
  have hno : ∀ p, r1.ptr ≤ p * k.page → p * k.page < r1.ptr + 2 * r1.len →
      ¬ (r2.ptr ≤ p * k.page ∧ p * k.page < r2.ptr + 2 * r2.len) := by
    intro p q1 q2 q3
    have hf := m.free p q3.1 q3.2
    obtain ⟨e, he, -⟩ := a1.mirror.shows' (p * k.page - r1.ptr) (by omega)
    rw [show r1.ptr + (p * k.page - r1.ptr) = p * k.page by omega,
      Nat.mul_div_cancel _ a4.page_pos, hf] at he
    cases he
  have ap : Apart t k k' r1.ptr r1.len := by
    refine ⟨m.keeps.page, fun p _ q1 q2 he => pt_kept (m.others p (hno p q1 q2)) he, ?_, ?_, m.wf⟩
    · intro p e q1 q2 he
      rw [(mirror_pte a4 a1.mirror q1 q2 he).1]
      exact ⟨m.keeps.data _ hlt, m.keeps.size _ hlt⟩
    · intro p e q1 q2 he q e' he' ho
      rw [(mirror_pte a4 a1.mirror q1 q2 he).1] at ho
      by_cases hq : r2.ptr ≤ q * k.page ∧ q * k.page < r2.ptr + 2 * r2.len
      · have := mirror_pte (p := q) m.wf m2 (by rw [m.keeps.page]; exact hq.1)
          (by rw [m.keeps.page]; exact hq.2) he'
        rcases ho with ho | ho
        · omega
        · rw [this.2] at ho; cases ho
      · rw [m.others q hq] at he'
        exact a3 q e' he' ho
  obtain ⟨_, _, q1, -, -, q2⟩ := C07_ring_step t k r1 n h1
  refine ⟨RingAt.other h1 ap, by rw [q2 k' ap, q1], ?_⟩
  -- the ranges consist of whole pages
  unfold RangesApart
  apply Decidable.byContradiction
  intro hn
  have l1 := a1.mirror.len_pos
  have l2 := m2.len_pos
  obtain ⟨c1, hc1⟩ := a1.mirror.ptr_dvd
  obtain ⟨c2, hc2⟩ := m2.ptr_dvd
  rw [m.keeps.page] at hc2
  rw [Nat.mul_comm] at hc1 hc2
  by_cases hle : r1.ptr ≤ r2.ptr
  · exact hno c2 (by omega) (by omega) (by omega)
  · exact hno c1 (by omega) (by omega) (by omega)

/-- C71: dropping one ring leaves any other ring reachable, with the same readable bytes. -/
theorem C71_rings_drop (t : Target) (k : Kernel) (r1 r2 : Ring) (n1 n2 : Nat)
    (h1 : RingAt t k r1 n1) (h2 : RingAt t k r2 n2)
    (hd : RangesApart r1.ptr r1.len r2.ptr r2.len) :
    ∃ k', r2.drop t k = .ok k' ∧ RingAt t k' r1 n1 ∧ r1.fillBuf t k' = r1.fillBuf t k := by
  obtain ⟨o1, s1, a1, a2, a3, a4⟩ := h1.inv
  obtain ⟨k', e, rel⟩ := C27_ring_drop t k r2 n2 h2
  have hlt : o1 < k.fresh := by
    obtain ⟨p, e, hp, he, ho⟩ := mirror_first a1.mirror
    rw [← ho]; exact (a4.objs p e he).1
  have ap : Apart t k k' r1.ptr r1.len := by
    refine ⟨rel.keeps.page, ?_, ?_, ?_, rel.wf⟩
    · intro p e q1 q2 he
      refine pt_kept ?_ he
      apply rel.others
      simp only [SeqWrite.writeCapacity]
      unfold RangesApart at hd
      omega
    · intro p e q1 q2 he
      rw [(mirror_pte a4 a1.mirror q1 q2 he).1]
      exact ⟨rel.keeps.data _ hlt, rel.keeps.size _ hlt⟩
    · intro p e q1 q2 he q e' he' ho
      rw [(mirror_pte a4 a1.mirror q1 q2 he).1] at ho
      by_cases hq : r2.ptr ≤ q * k.page ∧ q * k.page < r2.ptr + 2 * r2.len
      · rw [rel.gone q hq] at he'; cases he'
      · rw [rel.others q hq] at he'
        exact a3 q e' he' ho
  obtain ⟨_, _, q1, -, -, q2⟩ := C07_ring_step t k r1 n1 h1
  exact ⟨k', e, RingAt.other h1 ap, by rw [q2 k' ap, q1]⟩

-- two rings alive at once
example : ∃ k r1 r2, RingAt ⟨.w64, true⟩ k r1 0 ∧ RingAt ⟨.w64, true⟩ k r2 0 ∧
    RangesApart r1.ptr r1.len r2.ptr r2.len := by
  obtain ⟨k, r1, hr⟩ : ∃ k r, Ring.new ⟨.w64, true⟩ (demo 0) 5000 = .ok (k, .ok r) ∧
      ∃ k' r', Ring.new ⟨.w64, true⟩ k 9000 = .ok (k', .ok r') := ⟨_, _, rfl, _, _, rfl⟩
  obtain ⟨hr, k', r2, hr2⟩ := hr
  have h1 := RingAt.new (demo_wf 0) (by simp [Target.lim, Width.bits]) hr
  obtain ⟨-, -, -, -, -, w⟩ := h1.inv
  have h2 := RingAt.new w (by simp [Target.lim, Width.bits]) hr2
  obtain ⟨a, -, b⟩ := C71_rings_new _ _ _ _ _ _ _ h1 (by simp [Target.lim, Width.bits]) hr2
  exact ⟨k', r1, r2, a, h2, b⟩

end Vmap
