import Verif.Proofs.RingUse
import Verif.Spec.Demo
/-
Property theorems C19–C24, C72: `InfiniteRing`.
-/
namespace Vmap
open Spec Kernel

namespace InfRep
variable {t : Target} {k : Kernel} {r : InfiniteRing} {o : Obj} {s : Spec.Lossy}

theorem fillBuf_eq (h : InfRep t k r o s) : r.fillBuf t k = .ok s.q := by
  have h1 := h.len_eq
  have h2 := h.len_lt
  simp only [InfiniteRing.fillBuf, readSliceBytes, h.asReadSlice_eq, bind, Except.bind,
    h.load_read _ (Nat.min_le_left _ _)]
  rw [List.take_of_length_le (by simp only [Target.usizeMax]; omega)]

theorem writeSlice_all (h : InfRep t k r o s) :
    writeSliceBytes t k r t.usizeMax = .ok s.all := by
  have h2 := h.len_lt
  have h3 := h.all_len
  simp only [writeSliceBytes, h.asWriteSlice_eq, bind, Except.bind,
    h.load_write _ (Nat.min_le_left _ _)]
  rw [List.take_of_length_le (by simp only [Target.usizeMax]; omega)]

end InfRep

theorem lastN_all {n : Nat} {l : List Byte} (h : l.length ≤ n) : lastN n l = l := by
  simp [lastN, Nat.sub_eq_zero_of_le h]

theorem append_q {cap : Nat} {s : Lossy} (hc : s.all.length = cap) {bs : List Byte} : (s.append bs).q = lastN cap (s.q ++ bs) := by
  have hl : s.old.length + s.q.length = cap := by simpa [Lossy.all] using hc
  simp only [Lossy.append, lastN, Lossy.all, List.length_append, List.drop_drop]
  rw [hl]
  by_cases h : s.q.length + bs.length ≤ cap
  · rw [Nat.min_eq_left h, Nat.sub_eq_zero_of_le h, List.drop_zero, List.append_assoc,
      List.drop_append, List.drop_eq_nil_of_le (by omega),
      show cap + bs.length - cap + (cap - (s.q.length + bs.length)) -
        s.old.length = 0 by omega]
    simp
  · rw [Nat.min_eq_right (by omega), Nat.sub_self, Nat.add_zero, List.append_assoc,
      List.drop_append, List.drop_eq_nil_of_le (by omega), List.nil_append]
    congr 1; omega

theorem append_all {cap : Nat} {s : Lossy} (hc : s.all.length = cap) {bs : List Byte}
    (hb : bs.length ≤ cap) : (s.append bs).all.length = cap := by
  simp only [Lossy.append, Lossy.all, List.take_append_drop, lastN, List.length_drop,
    List.length_append]
  simp only [Lossy.all, List.length_append] at hc
  omega

theorem lastN_lastN (cap : Nat) (q bs : List Byte) :
    lastN cap (q ++ lastN cap bs) = lastN cap (q ++ bs) := by
  by_cases h : bs.length ≤ cap
  · rw [lastN_all h]
  · simp only [lastN, List.length_append, List.length_drop, List.drop_append, List.drop_drop]
    rw [List.drop_eq_nil_of_le (show q.length ≤ q.length + (bs.length - (bs.length - cap)) - cap by
        omega),
      List.drop_eq_nil_of_le (show q.length ≤ q.length + bs.length - cap by omega)]
    simp only [List.nil_append]
    congr 1; omega

/-- One call on the plain lossy queue, seen on the full specification. -/
theorem lossy_of {cap : Nat} {s : Lossy} (hc : s.all.length = cap) {op : RingOp}
    {q : List Byte} {x : Resp} (h : lossyStep cap s.q op = some (q, x)) :
    (s.step op).1.q = q ∧ (s.step op).2 = x ∧ (s.step op).1.all.length = cap ∧ FeedOk cap op ∧
      op ≠ .clear ∧
      (s.step op).1.total + lossyTraffic cap [] = s.total + lossyTraffic cap [.call op] := by
  have hl : s.old.length + s.q.length = cap := by simpa [Lossy.all] using hc
  cases op with
  | write bs =>
    simp only [lossyStep, Option.some.injEq, Prod.mk.injEq] at h
    obtain ⟨h1, h2⟩ := h
    have hb : (bs.take (min bs.length cap)).length ≤ cap := by simp; omega
    refine ⟨?_, by simp only [Lossy.step, hc]; exact h2, ?_, trivial, by simp, ?_⟩
    · simp only [Lossy.step, hc]; rw [append_q hc]; exact h1
    · simp only [Lossy.step, hc]; exact append_all hc hb
    · simp [Lossy.step, hc, Lossy.append, lossyTraffic]
  | read n =>
    simp only [lossyStep, Option.some.injEq, Prod.mk.injEq] at h
    exact ⟨h.1, h.2, by simp [Lossy.step, Lossy.all]; omega, trivial, by simp, rfl⟩
  | consume n =>
    simp only [lossyStep, Option.some.injEq, Prod.mk.injEq] at h
    exact ⟨h.1, h.2, by simp [Lossy.step, Lossy.all]; omega, trivial, by simp, rfl⟩
  | clear => simp [lossyStep] at h
  | feed n => simp [lossyStep] at h
  | poke bs => simp [lossyStep] at h
  | writeSlice m => simp [lossyStep] at h
  | readSlice m =>
    simp only [lossyStep, Option.some.injEq, Prod.mk.injEq] at h
    exact ⟨h.1, h.2, hc, trivial, by simp, rfl⟩
  | readLen =>
    simp only [lossyStep, Option.some.injEq, Prod.mk.injEq] at h
    exact ⟨h.1, h.2, hc, trivial, by simp, rfl⟩
  | writeLen =>
    simp only [lossyStep, ← hc, Option.some.injEq, Prod.mk.injEq] at h
    exact ⟨h.1, h.2, hc, trivial, by simp, rfl⟩
  | capacity =>
    simp only [lossyStep, ← hc, Option.some.injEq, Prod.mk.injEq] at h
    exact ⟨h.1, h.2, hc, trivial, by simp, rfl⟩
  | isEmpty =>
    simp only [lossyStep, Option.some.injEq, Prod.mk.injEq] at h
    exact ⟨h.1, h.2, hc, trivial, by simp, rfl⟩
  | isFull =>
    simp only [lossyStep, Option.some.injEq, Prod.mk.injEq] at h
    refine ⟨h.1, ?_, hc, trivial, by simp, rfl⟩
    rw [← h.2]
    simp only [Lossy.step, Resp.flag.injEq]
    rw [← hc]
    cases s.all <;> rfl

theorem inf_run {t : Target} {o : Obj} : ∀ (ops : List InfOp) {k : Kernel} {r : InfiniteRing}
    {s : Lossy} {q : List Byte} {rs : List Resp}, InfRep t k r o s →
    lossyRun r.len s.q ops = some (q, rs) →
    s.total + lossyTraffic r.len ops < posBound t r.len →
    ∃ k' r', r.execAll t k ops = .ok ((k', r'), rs) ∧ r'.fillBuf t k' = .ok q
  | [], k, r, s, q, rs, h, hs, _ => by
    simp only [lossyRun, Option.some.injEq, Prod.mk.injEq] at hs
    exact ⟨k, r, by rw [← hs.2]; rfl, by rw [h.fillBuf_eq, hs.1]⟩
  | .call op :: ops, k, r, s, q, rs, h, hs, hb => by
    simp only [lossyRun, bind, Option.bind] at hs
    cases h1 : lossyStep r.len s.q op with
    | none => rw [h1] at hs; cases hs
    | some qx =>
      obtain ⟨q1, x⟩ := qx
      rw [h1] at hs
      simp only at hs
      cases h2 : lossyRun r.len q1 ops with
      | none => rw [h2] at hs; cases hs
      | some qrs =>
        obtain ⟨q2, rs2⟩ := qrs
        rw [h2] at hs
        simp only [pure, Option.some.injEq, Prod.mk.injEq] at hs
        obtain ⟨e1, e2, e3, e4, e5, e6⟩ := lossy_of h.all_len h1
        have htr : lossyTraffic r.len (.call op :: ops) =
            lossyTraffic r.len [.call op] + lossyTraffic r.len ops := by
          cases op <;> simp [lossyTraffic]
        rw [htr] at hb
        simp only [show lossyTraffic r.len [] = 0 from rfl] at e6
        obtain ⟨k1, r1, ex, hr1, -, p2, -⟩ := inf_step h op (by omega) e4
        obtain ⟨k2, r2, ex2, f2⟩ := inf_run ops hr1 (q := q2) (rs := rs2)
          (by rw [p2, e1]; exact h2) (by rw [p2]; omega)
        refine ⟨k2, r2, ?_, by rw [f2, hs.1]⟩
        simp only [InfiniteRing.execAll, ex, bind, Except.bind, ex2, pure, Except.pure, ← hs.2, e2]
  | .writeAll bs :: ops, k, r, s, q, rs, h, hs, hb => by
    simp only [lossyRun, bind, Option.bind] at hs
    cases h2 : lossyRun r.len (lastN r.len (s.q ++ bs)) ops with
    | none => rw [h2] at hs; cases hs
    | some qrs =>
      obtain ⟨q2, rs2⟩ := qrs
      rw [h2] at hs
      simp only [pure, Option.some.injEq, Prod.mk.injEq] at hs
      simp only [lossyTraffic] at hb
      have ht : (lastN r.len bs).length = min bs.length r.len := by simp [lastN]; omega
      obtain ⟨k1, r1, ex, hr1, -, p2, -⟩ := inf_writeAll h bs (by rw [h.total]; omega)
      have hq := append_q (s := s) h.all_len (bs := lastN r.len bs)
      rw [lastN_lastN] at hq
      obtain ⟨k2, r2, ex2, f2⟩ := inf_run ops hr1 (q := q2) (rs := rs2)
        (by rw [p2, hq]; exact h2) (by
          rw [p2]
          show s.total + (lastN r.len bs).length + _ < _
          omega)
      refine ⟨k2, r2, ?_, by rw [f2, hs.1]⟩
      simp only [InfiniteRing.execAll, ex, bind, Except.bind, ex2, pure, Except.pure, ← hs.2]

/-! ### C19 -/

/-- C19: after `InfiniteRing::new`, every history of calls returns exactly what a queue returns
that appends and then keeps only the last `capacity` bytes; no call panics or faults. -/
theorem C19_infinite_lossy (t : Target) (k0 k : Kernel) (wf : Wf t k0) (hint : Nat)
    (hh : hint < t.lim) (r : InfiniteRing) (hr : InfiniteRing.new t k0 hint = .ok (k, .ok r))
    (ops : List InfOp) (q : List Byte) (rs : List Resp)
    (spec : lossyRun (SeqWrite.writeCapacity r) [] ops = some (q, rs))
    (below : lossyTraffic (SeqWrite.writeCapacity r) ops <
      posBound t (SeqWrite.writeCapacity r)) :
    ∃ k' r', r.execAll t k ops = .ok ((k', r'), rs) ∧ r'.fillBuf t k' = .ok q := by
  obtain ⟨o, h, -, -⟩ := infRep_new wf hh hr
  exact inf_run ops h spec (by rw [Nat.zero_add]; exact below)

-- two writes, a read and a write_all
example : Wf ⟨.w64, true⟩ (demo 0) ∧
    ∃ k r, InfiniteRing.new ⟨.w64, true⟩ (demo 0) 4096 = .ok (k, .ok r) ∧
    lossyRun (SeqWrite.writeCapacity r) []
      [.call (.write [1, 2, 3]), .call (.read 2), .writeAll [4, 5], .call .readLen] =
      some ([3, 4, 5], [.num 3, .bytes [1, 2], .unit, .num 3]) ∧
    lossyTraffic (SeqWrite.writeCapacity r)
      [.call (.write [1, 2, 3]), .call (.read 2), .writeAll [4, 5], .call .readLen] <
      posBound ⟨.w64, true⟩ (SeqWrite.writeCapacity r) := by
  refine ⟨demo_wf 0, ?_⟩
  refine ⟨_, _, rfl, rfl, ?_⟩
  have h : ∀ cap, cap = 4096 → lossyTraffic cap
      [.call (.write [1, 2, 3]), .call (.read 2), .writeAll [4, 5], .call .readLen] <
      posBound ⟨.w64, true⟩ cap := by
    rintro _ rfl
    simp [lossyTraffic, posBound, Target.lim, Width.bits, lim64]
  exact h _ rfl

/-- C19, C21, C23, one call at a time, with arbitrary other activity in between: `write` is a
short write of the head, `consume`/`read` take the oldest bytes, and so on (`lossyStep`). -/
theorem C19_infinite_step (t : Target) (k : Kernel) (r : InfiniteRing) (n : Nat)
    (h : InfAt t k r n) :
    ∃ q, r.fillBuf t k = .ok q ∧ r.writeLen t = .ok (SeqWrite.writeCapacity r) ∧
      (∀ op q' x, lossyStep (SeqWrite.writeCapacity r) q op = some (q', x) →
        passed op n (SeqWrite.writeCapacity r) < posBound t (SeqWrite.writeCapacity r) →
        ∃ k' r', r.exec t k op = .ok ((k', r'), x) ∧ r'.fillBuf t k' = .ok q' ∧
          InfAt t k' r' (passed op n (SeqWrite.writeCapacity r)) ∧
          SeqWrite.writeCapacity r' = SeqWrite.writeCapacity r ∧
          (∀ a, ¬ (r.ptr ≤ a ∧ a < r.ptr + 2 * SeqWrite.writeCapacity r) →
            k'.load a = k.load a)) ∧
      (∀ k', Apart t k k' r.ptr r.len → r.fillBuf t k' = .ok q) := by
  obtain ⟨o, s, h1, h2, h3, h4⟩ := h.inv
  refine ⟨s.q, h1.fillBuf_eq, rfl, ?_, ?_⟩
  · intro op q' x hop hp
    obtain ⟨e1, e2, -, e4, e5, -⟩ := lossy_of h1.all_len hop
    have ht : (s.step op).1.total = passed op n r.len := by
      cases op <;> simp [Lossy.step, passed, h2, Lossy.append, h1.all_len]
      exact absurd rfl e5
    obtain ⟨k', r', e, h', p1, p2, sd, d⟩ := inf_step h1 op (by rw [ht]; exact hp) e4
    exact ⟨k', r', by rw [e, e2], by rw [h'.fillBuf_eq, e1],
      InfAt.call h rfl e5 hp e4 e, p2, fun a ha => h3.load h4 h1.mirror sd d a ha⟩
  · intro k' ap
    obtain ⟨m, d⟩ := h1.mirror.apart h4 ap
    have h' : InfRep t k' r o s :=
      ⟨m, by rw [win_congr d]; exact h1.all, h1.total, h1.qlen, h1.le, h1.pos⟩
    exact h'.fillBuf_eq

/-- A reachable infinite ring for the examples: three bytes written. -/
theorem demo_infAt : ∃ k r, InfAt ⟨.w64, true⟩ k r 3 ∧
    r.fillBuf ⟨.w64, true⟩ k = .ok [1, 2, 3] := by
  obtain ⟨k, r, hr⟩ : ∃ k r, InfiniteRing.new ⟨.w64, true⟩ (demo 0) 5000 = .ok (k, .ok r) :=
    ⟨_, _, rfl⟩
  have h0 := InfAt.new (demo_wf 0) (by simp [Target.lim, Width.bits]) hr
  obtain ⟨hm, hl0, hw⟩ := C15_C25_infinite_new _ _ _ (demo_wf 0) _
    (by simp [Target.lim, Width.bits]) r hr
  have hcap := hm.capacity.2.1
  have hd : (12 : Nat) < posBound ⟨.w64, true⟩ r.len := by
    unfold posBound; split <;> simp [lim64, Target.lim, Width.bits]
  obtain ⟨q, hq, -, hs, -⟩ := C19_infinite_step _ _ _ _ h0
  have hq0 : q = [] := by
    obtain ⟨o, s, h1, h2, -⟩ := h0.inv
    rw [h1.fillBuf_eq] at hq
    rw [h1.readLen_eq] at hl0
    injection hq with hq
    injection hl0 with hl0
    rw [← hq]
    exact List.eq_nil_of_length_eq_zero hl0
  subst hq0
  have hmin : min [(1 : Byte), 2, 3].length r.len = 3 := by simp; omega
  obtain ⟨k', r', -, e2, e3, -⟩ := hs (.write [1, 2, 3]) _ _ rfl (by
    simp only [passed, SeqWrite.writeCapacity]; rw [hmin]; omega)
  simp only [passed, SeqWrite.writeCapacity, hmin] at e2 e3
  refine ⟨k', r', e3, ?_⟩
  rw [e2, lastN_all (by simp; omega)]
  rfl

example : ∃ k r n, InfAt ⟨.w64, true⟩ k r n ∧
    passed (.write [9]) n (SeqWrite.writeCapacity r) <
      posBound ⟨.w64, true⟩ (SeqWrite.writeCapacity r) := by
  obtain ⟨k, r, h, -⟩ := demo_infAt
  refine ⟨k, r, 3, h, ?_⟩
  have : (12 : Nat) < posBound ⟨.w64, true⟩ r.len := by
    unfold posBound; split <;> simp [lim64, Target.lim, Width.bits]
  simp only [passed, SeqWrite.writeCapacity]
  have : min [(9 : Byte)].length r.len ≤ 1 := Nat.min_le_left _ _
  omega

/-! ### C20, C21, C23 -/

/-- C20: `write_all(buf)` always succeeds, also for buffers longer than the capacity, and leaves
the last `capacity` bytes of (readable bytes ++ `buf`). -/
theorem C20_infinite_write_all (t : Target) (k : Kernel) (r : InfiniteRing) (n : Nat)
    (h : InfAt t k r n) (q : List Byte) (hq : r.fillBuf t k = .ok q) (buf : List Byte)
    (below : n + min buf.length (SeqWrite.writeCapacity r) <
      posBound t (SeqWrite.writeCapacity r)) :
    ∃ k' r', r.writeAll t k buf = .ok (k', r') ∧
      r'.fillBuf t k' = .ok (lastN (SeqWrite.writeCapacity r) (q ++ buf)) ∧
      SeqWrite.writeCapacity r' = SeqWrite.writeCapacity r ∧
      (∀ a, ¬ (r.ptr ≤ a ∧ a < r.ptr + 2 * SeqWrite.writeCapacity r) →
        k'.load a = k.load a) := by
  obtain ⟨o, s, h1, h2, h3, h4⟩ := h.inv
  rw [h1.fillBuf_eq] at hq
  injection hq with hq
  subst hq
  have ht : (lastN r.len buf).length = min buf.length r.len := by simp [lastN]; omega
  obtain ⟨k', r', e, h', p1, p2, sd, d⟩ := inf_writeAll h1 buf (by rw [h1.total, h2]; exact below)
  refine ⟨k', r', e, ?_, p2, fun a ha => h3.load h4 h1.mirror sd d a ha⟩
  rw [h'.fillBuf_eq, append_q h1.all_len, lastN_lastN]
  rfl

/-- C21: `write(buf)` returns `min(buf.len(), capacity)` and appends exactly that leading part,
evicting the oldest bytes. -/
theorem C21_infinite_write (t : Target) (k : Kernel) (r : InfiniteRing) (n : Nat)
    (h : InfAt t k r n) (q : List Byte) (hq : r.fillBuf t k = .ok q) (buf : List Byte)
    (below : n + min buf.length (SeqWrite.writeCapacity r) <
      posBound t (SeqWrite.writeCapacity r)) :
    ∃ k' r', r.write t k buf = .ok (k', r', min buf.length (SeqWrite.writeCapacity r)) ∧
      r'.fillBuf t k' = .ok (lastN (SeqWrite.writeCapacity r)
        (q ++ buf.take (SeqWrite.writeCapacity r))) := by
  obtain ⟨q', hq', -, hs, -⟩ := C19_infinite_step t k r n h
  rw [hq] at hq'
  injection hq' with hq'
  subst hq'
  obtain ⟨k', r', e, f, -⟩ := hs (.write buf) _ _ rfl below
  refine ⟨k', r', ?_, ?_⟩
  · simp only [InfiniteRing.exec, bind, Except.bind] at e
    cases hw : r.write t k buf with
    | error f => rw [hw] at e; cases e
    | ok x =>
      obtain ⟨k1, r1, m⟩ := x
      rw [hw] at e
      simp only [pure, Except.pure, Except.ok.injEq, Prod.mk.injEq, Resp.num.injEq] at e
      obtain ⟨⟨e1, e2⟩, e3⟩ := e
      rw [e1, e2, e3]
  · rw [f, show buf.take (min buf.length (SeqWrite.writeCapacity r)) =
      buf.take (SeqWrite.writeCapacity r) by rw [List.take_eq_take_iff]; omega]

/-- C23: `consume(m)` discards exactly the `min(m, read_len())` oldest bytes, for every `m`. -/
theorem C23_infinite_consume (t : Target) (k : Kernel) (r : InfiniteRing) (n : Nat)
    (h : InfAt t k r n) (q : List Byte) (hq : r.fillBuf t k = .ok q) (m : Nat) :
    ∃ r', r.consume t m = .ok r' ∧ r'.fillBuf t k = .ok (q.drop m) := by
  obtain ⟨o, s, h1, h2, h3, h4⟩ := h.inv
  rw [h1.fillBuf_eq] at hq
  injection hq with hq
  subst hq
  exact ⟨_, h1.consume_eq m, (h1.consumed m).fillBuf_eq⟩

/-! ### C22 -/

/-- C22: `write_len()` is the capacity, `read_len()` at most that; both slices lie inside the
double mapping, are usable, and hold pairwise different memory. -/
theorem C22_infinite_lengths (t : Target) (k : Kernel) (r : InfiniteRing) (n : Nat)
    (h : InfAt t k r n) (m1 m2 : Nat) :
    ∃ a la b lb c, asReadSlice t r m1 = .ok (a, la) ∧ asWriteSlice t r m2 = .ok (b, lb) ∧
      r.writeLen t = .ok (SeqWrite.writeCapacity r) ∧ r.readLen t = .ok c ∧
      c ≤ SeqWrite.writeCapacity r ∧ la = min c m1 ∧ lb = min (SeqWrite.writeCapacity r) m2 ∧
      (r.ptr ≤ a ∧ a + la ≤ r.ptr + 2 * r.len) ∧ (r.ptr ≤ b ∧ b + lb ≤ r.ptr + 2 * r.len) ∧
      (∀ i, i < la → k.Usable (a + i)) ∧ (∀ j, j < lb → k.Usable (b + j)) ∧
      (∀ i j, i < la → j < la → i ≠ j → k.Separate (a + i) (a + j)) ∧
      (∀ i j, i < lb → j < lb → i ≠ j → k.Separate (b + i) (b + j)) := by
  obtain ⟨o, s, h1, h2, h3, h4⟩ := h.inv
  have hl := h1.len_eq
  have hp := h1.mirror.len_pos
  have ma := Nat.mod_lt (r.wpos - r.rlen) hp
  have mb := Nat.mod_lt r.wpos hp
  have shows_at : ∀ x i, i < r.len → k.Shows (r.ptr + x % r.len + i) o ((x + i) % r.len) := by
    intro x i hi
    have hx := Nat.mod_lt x hp
    have := h1.mirror.shows' (x % r.len + i) (by omega)
    rwa [Nat.mod_add_mod, ← Nat.add_assoc] at this
  refine ⟨_, _, _, _, _, h1.asReadSlice_eq m1, h1.asWriteSlice_eq m2, rfl, h1.readLen_eq, ?_, rfl,
    rfl, ?_, ?_, ?_, ?_, ?_, ?_⟩
  · simp only [SeqWrite.writeCapacity]; omega
  · omega
  · omega
  · exact fun i hi => (shows_at _ i (by omega)).usable
  · exact fun j hj => (shows_at _ j (by omega)).usable
  · intro i j hi hj hij
    exact (shows_at _ i (by omega)).separate (shows_at _ j (by omega))
      (fun e => hij (mod_inj (by omega) (by omega) e))
  · intro i j hi hj hij
    exact (shows_at _ i (by omega)).separate (shows_at _ j (by omega))
      (fun e => hij (mod_inj (by omega) (by omega) e))

/-! ### C24 -/

/-- C24 (partial: without the arguments for which `read_len() + m` exceeds `u64::MAX`): `feed(m)` exposes
`min(m, capacity)` bytes of the write slice and evicts the oldest bytes. -/
theorem C24_infinite_feed_partial (t : Target) (k : Kernel) (r : InfiniteRing) (n : Nat)
    (h : InfAt t k r n) (q ws : List Byte) (hq : r.fillBuf t k = .ok q)
    (hs : writeSliceBytes t k r t.usizeMax = .ok ws) (m : Nat)
    (below : n + min m (SeqWrite.writeCapacity r) < posBound t (SeqWrite.writeCapacity r))
    (hm : q.length + m < 2 ^ 64) :
    ∃ r', r.feed t m = .ok r' ∧
      r'.fillBuf t k = .ok (lastN (SeqWrite.writeCapacity r) (q ++ ws.take m)) := by
  obtain ⟨o, s, h1, h2, h3, h4⟩ := h.inv
  rw [h1.fillBuf_eq] at hq
  rw [h1.writeSlice_all] at hs
  injection hq with hq
  injection hs with hs
  subst hq hs
  have hl := h1.len_eq
  have ha := h1.all_len
  have hp : PosOk t r.len (r.wpos + min m r.len) :=
    posOk_of_lt (by rw [h1.total, h2]; exact below)
  have hn : s.q.length + m < lim64 := hm
  refine ⟨_, h1.feed_eq m hp hn, ?_⟩
  rw [(h1.fed m hp).fillBuf_eq, append_q ha]
  rfl

/-- On 32-bit targets every `usize` argument is fine. -/
theorem C24_infinite_feed_32 (c : Bool) (k : Kernel) (r : InfiniteRing) (n : Nat)
    (h : InfAt ⟨.w32, c⟩ k r n) (q ws : List Byte) (hq : r.fillBuf ⟨.w32, c⟩ k = .ok q)
    (hs : writeSliceBytes ⟨.w32, c⟩ k r (2 ^ 32 - 1) = .ok ws) (m : Nat) (hm : m < 2 ^ 32)
    (below : n + min m (SeqWrite.writeCapacity r) <
      posBound ⟨.w32, c⟩ (SeqWrite.writeCapacity r)) :
    ∃ r', r.feed ⟨.w32, c⟩ m = .ok r' ∧
      r'.fillBuf ⟨.w32, c⟩ k = .ok (lastN (SeqWrite.writeCapacity r) (q ++ ws.take m)) := by
  obtain ⟨o, s, h1, -⟩ := h.inv
  have hlt := h1.len_lt
  simp only [Target.lim, Width.bits] at hlt
  refine C24_infinite_feed_partial _ k r n h q ws hq hs m below ?_
  have hl := h1.len_eq
  rw [h1.fillBuf_eq] at hq
  injection hq with hq
  rw [← hq]; omega

/-- A new infinite ring after `write(&[7])`. -/
theorem inf_one_byte (c : Bool) : ∃ k r, InfAt ⟨.w64, c⟩ k r 1 ∧ r.len = 4096 ∧ r.rlen = 1 ∧
    r.wpos = 1 := by
  have new : ∀ c : Bool, ∃ k r, InfiniteRing.new ⟨.w64, c⟩ (demo 0) 4096 = .ok (k, .ok r) ∧
      r.len = 4096 := by
    intro c; cases c
    · exact ⟨_, _, rfl, rfl⟩
    · exact ⟨_, _, rfl, rfl⟩
  obtain ⟨k, r, hr, l1⟩ := new c
  have h0 := InfAt.new (demo_wf 0) (by simp [Target.lim, Width.bits]) hr
  obtain ⟨o, s, hrep, hq, ht⟩ : ∃ o s, InfRep ⟨.w64, c⟩ k r o s ∧ s.q = [] ∧ s.total = 0 := by
    obtain ⟨o, hrep, -, -⟩ := infRep_new (demo_wf 0) (by simp [Target.lim, Width.bits]) hr
    exact ⟨o, _, hrep, rfl, rfl⟩
  have hp : posBound ⟨.w64, c⟩ r.len = 2 ^ 64 := by
    simp [l1, posBound, Target.lim, Width.bits, lim64]
  have hcap := hrep.all_len
  have hs : (s.step (.write [7])).1 = s.append [7] := by
    simp only [Lossy.step, hcap]
    rw [List.take_of_length_le (by simp; omega)]
  obtain ⟨k', r', e, h', p1, p2, -⟩ := inf_step hrep (.write [7])
    (by rw [hs, hp]; simp [Lossy.append, ht]) trivial
  have h1 := InfAt.call (op := .write [7]) h0 (w := 4096)
    (by simp [InfiniteRing.writeLen, l1]) (by simp)
    (by simp [SeqWrite.writeCapacity, hp, passed])
    trivial e
  refine ⟨k', r', h1, by rw [p2, l1], ?_, ?_⟩
  · rw [h'.qlen, hs, append_q hcap, hq, l1]; simp [lastN]
  · rw [h'.total, hs]; simp [Lossy.append, ht]

/-- C24 is false on 64-bit targets: after `write(&[7])`, `feed(usize::MAX)` overflows
`rlen + len`: debug builds panic; release builds leave 0 readable bytes instead of the whole
capacity. -/
theorem C24_infinite_feed_overflow :
    (∃ k r n, InfAt ⟨.w64, true⟩ k r n ∧ r.readLen ⟨.w64, true⟩ = .ok 1 ∧
      r.feed ⟨.w64, true⟩ (2 ^ 64 - 1) = .error .panic) ∧
    (∃ k r n r', InfAt ⟨.w64, false⟩ k r n ∧ r.readLen ⟨.w64, false⟩ = .ok 1 ∧
      SeqWrite.writeCapacity r = 4096 ∧
      r.feed ⟨.w64, false⟩ (2 ^ 64 - 1) = .ok r' ∧ r'.readLen ⟨.w64, false⟩ = .ok 0) := by
  have at1 := fun c => inf_one_byte c
  have feed : ∀ (c : Bool) (r : InfiniteRing) (m : Nat), r.len = 4096 → r.rlen = 1 → r.wpos = 1 →
      m + 1 = lim64 → r.feed ⟨.w64, c⟩ m =
        if c then .error .panic else .ok { r with wpos := 4097, rlen := 0 } := by
    intro c r m l2 l3 l4 hm
    have h1 : min m r.len = 4096 := by rw [l2]; simp only [lim64] at hm; omega
    have h2 : asU64 m = m := Nat.mod_eq_of_lt (by omega)
    rw [InfiniteRing.feed, InfiniteRing.writeLen]
    simp only [bind, Except.bind]
    rw [h1, h2, show asU64 4096 = 4096 from rfl, l3, l4, add64_ok (by simp [lim64])]
    simp only []
    rw [add64, addL, if_neg (by omega), Nat.add_comm, hm, Nat.mod_self]
    cases c
    · simp [pure, Except.pure]
    · rfl
  constructor
  · obtain ⟨k, r, h, l2, l3, l4⟩ := at1 true
    refine ⟨k, r, 1, h, by simp [InfiniteRing.readLen, l3, asUsize, Target.lim, Width.bits], ?_⟩
    exact feed true r _ l2 l3 l4 (by simp only [lim64])
  · obtain ⟨k, r, h, l2, l3, l4⟩ := at1 false
    refine ⟨k, r, 1, { r with wpos := 4097, rlen := 0 }, h,
      by simp [InfiniteRing.readLen, l3, asUsize, Target.lim, Width.bits], l2, ?_,
      by simp [InfiniteRing.readLen, asUsize]⟩
    exact feed false r _ l2 l3 l4 (by simp only [lim64])

/-! ### C72 -/

/-- C72 (partial: up to the free part of the write slice): storing at most
`capacity - read_len()` bytes into the write slice leaves the readable bytes alone. -/
theorem C72_infinite_poke_partial (t : Target) (k : Kernel) (r : InfiniteRing) (n : Nat)
    (h : InfAt t k r n) (q bs : List Byte) (hq : r.fillBuf t k = .ok q)
    (hb : bs.length + q.length ≤ SeqWrite.writeCapacity r) :
    ∃ k', poke t k r bs = .ok k' ∧ r.fillBuf t k' = .ok q := by
  obtain ⟨o, s, h1, h2, h3, h4⟩ := h.inv
  rw [h1.fillBuf_eq] at hq
  injection hq with hq
  subst hq
  simp only [SeqWrite.writeCapacity] at hb
  have hl := h1.len_eq
  have hlt := h1.len_lt
  have ha := h1.all_len
  obtain ⟨k', e, sd, d, h'⟩ := h1.poked bs (by omega)
  refine ⟨k', ?_, ?_⟩
  · simp only [poke, h1.asWriteSlice_eq, bind, Except.bind]
    rw [List.take_of_length_le (by simp only [Target.usizeMax]; omega), e]
  · rw [h'.fillBuf_eq]
    simp only []
    rw [List.drop_append, List.drop_eq_nil_of_le (by omega), List.nil_append, List.drop_drop,
      show bs.length + (s.old.length - bs.length) = s.old.length by omega]
    simp [Lossy.all]

/-- C72 is false beyond that: with a full infinite ring, storing one byte into the write slice —
before any `feed` — changes the oldest readable byte. -/
theorem C72_infinite_poke_evicts (t : Target) (k : Kernel) (r : InfiniteRing) (n : Nat)
    (h : InfAt t k r n) (x : Byte) (q : List Byte) (b : Byte)
    (hq : r.fillBuf t k = .ok (x :: q)) (hfull : q.length + 1 = SeqWrite.writeCapacity r) :
    ∃ k', poke t k r [b] = .ok k' ∧ r.fillBuf t k' = .ok (b :: q) := by
  obtain ⟨o, s, h1, h2, h3, h4⟩ := h.inv
  rw [h1.fillBuf_eq] at hq
  injection hq with hq
  simp only [SeqWrite.writeCapacity] at hfull
  have hl := h1.len_eq
  have hlt := h1.len_lt
  have hold : s.old = [] := by
    apply List.eq_nil_of_length_eq_zero
    rw [hq] at hl
    simp only [List.length_cons] at hl
    omega
  obtain ⟨k', e, sd, d, h'⟩ := h1.poked [b] (by simp; omega)
  refine ⟨k', ?_, ?_⟩
  · simp only [poke, h1.asWriteSlice_eq, bind, Except.bind]
    rw [List.take_of_length_le (by simp only [Target.usizeMax, List.length_singleton]; omega), e]
  · rw [h'.fillBuf_eq]
    simp [hold, Lossy.all, hq]

-- a full infinite ring exists: feed a new one its whole capacity
example : ∃ k r n x q, InfAt ⟨.w64, true⟩ k r n ∧ r.fillBuf ⟨.w64, true⟩ k = .ok (x :: q) ∧
    q.length + 1 = SeqWrite.writeCapacity r := by
  obtain ⟨k, r, hr, l1⟩ : ∃ k r,
      InfiniteRing.new ⟨.w64, true⟩ (demo 0) 4096 = .ok (k, .ok r) ∧ r.len = 4096 :=
    ⟨_, _, rfl, rfl⟩
  have h0 := InfAt.new (demo_wf 0) (by simp [Target.lim, Width.bits]) hr
  obtain ⟨o, s, h1, h2, -⟩ := h0.inv
  have hp : posBound ⟨.w64, true⟩ r.len = 2 ^ 64 := by
    simp [l1, posBound, Target.lim, Width.bits, lim64]
  have hstep := inf_step h1 (.feed 4096)
    (by
      rw [hp]
      simp [Lossy.step, Lossy.append, h2]
      omega)
    (by simp [FeedOk, l1, lim64])
  obtain ⟨k1, r1, e1, h1', p1, p2, -⟩ := hstep
  have hq := append_q (s := s) h1.all_len (bs := s.all.take 4096)
  have hql : (s.append (s.all.take 4096)).q.length = 4096 := by
    rw [hq, l1]
    have : s.all.length = 4096 := by rw [h1.all_len, l1]
    simp [lastN, this]
  have hat := InfAt.call (op := .feed 4096) h0 (w := 4096)
    (by simp [InfiniteRing.writeLen, l1]) (by simp)
    (by simp [SeqWrite.writeCapacity, hp, passed])
    (by simp [FeedOk, SeqWrite.writeCapacity, l1, lim64]) e1
  cases hqq : (s.append (s.all.take 4096)).q with
  | nil => rw [hqq] at hql; simp at hql
  | cons x q =>
    refine ⟨k1, r1, _, x, q, hat, ?_, ?_⟩
    · rw [h1'.fillBuf_eq]; exact congrArg _ hqq
    · rw [hqq] at hql
      simp only [List.length_cons] at hql
      show _ = r1.len
      rw [p2, l1, hql]

end Vmap
