import Verif.Props.Ring
/-
Property theorem C16: a `Ring` on a 32-bit target after 4 GiB of traffic.
-/
namespace Vmap
open Spec Kernel

/-- C16 (partial: capacities that divide 2^32, that is, powers of two): a `Ring` on a 32-bit
target is a FIFO queue for the first 2^64 bytes. -/
theorem C16_ring32_fifo_partial (c : Bool) (k0 k : Kernel) (wf : Wf ⟨.w32, c⟩ k0) (hint : Nat)
    (hh : hint < 2 ^ 32) (r : Ring) (hr : Ring.new ⟨.w32, c⟩ k0 hint = .ok (k, .ok r))
    (hd : SeqWrite.writeCapacity r ∣ 2 ^ 32)
    (ops : List RingOp) (q : List Byte) (rs : List Resp)
    (spec : fifoRun (SeqWrite.writeCapacity r) [] ops = some (q, rs))
    (below : fifoBelow (2 ^ 64) (SeqWrite.writeCapacity r) 0 [] ops) :
    ∃ k' r', r.execAll ⟨.w32, c⟩ k ops = .ok ((k', r'), rs) ∧
      r'.fillBuf ⟨.w32, c⟩ k' = .ok q := by
  refine C07_ring_fifo _ k0 k wf hint hh r hr ops q rs spec ?_
  have : posBound ⟨.w32, c⟩ (SeqWrite.writeCapacity r) = 2 ^ 64 := by
    unfold posBound
    exact if_pos hd
  rw [this]
  exact below

-- an 8 KiB ring on a 32-bit target
example : Wf ⟨.w32, false⟩ (demo 0) ∧
    ∃ k r, Ring.new ⟨.w32, false⟩ (demo 0) 8192 = .ok (k, .ok r) ∧
    SeqWrite.writeCapacity r ∣ 2 ^ 32 :=
  ⟨demo_wf 0, _, _, rfl, ⟨524288, rfl⟩⟩

/-! The other capacities. -/

/-- Fill and empty the ring `n` times, then do `rest`. -/
def laps (cap : Nat) : Nat → List RingOp → List RingOp
  | 0, rest => rest
  | n + 1, rest => .write (List.replicate cap 0) :: .consume cap :: laps cap n rest

/-- The answers to `laps`. -/
def lapsResp (cap : Nat) : Nat → List Resp → List Resp
  | 0, rest => rest
  | n + 1, rest => .num cap :: .unit :: lapsResp cap n rest

theorem laps_fifo (cap : Nat) {rest : List RingOp} {q : List Byte} {rs : List Resp}
    (h : fifoRun cap [] rest = some (q, rs)) :
    ∀ n, fifoRun cap [] (laps cap n rest) = some (q, lapsResp cap n rs)
  | 0 => h
  | n + 1 => by
    have ih := laps_fifo cap h n
    simp only [laps, fifoRun, fifoStep, bind, Option.bind, List.nil_append, List.length_nil,
      Nat.sub_zero, List.length_replicate, Nat.min_self, pure]
    rw [List.take_of_length_le (by simp), List.drop_eq_nil_of_le (by simp), ih]
    rfl

theorem laps_exec {t : Target} {o : Obj} : ∀ (n : Nat) {k : Kernel} {r : Ring} {s : Win},
    RingRep t k r o s → s.q = [] → s.total + n * r.len < posBound t r.len →
    ∃ k' r' s', RingRep t k' r' o s' ∧ s'.q = [] ∧ s'.total = s.total + n * r.len ∧
      r'.len = r.len ∧ ∀ rest x xs, r'.execAll t k' rest = .ok (x, xs) →
        r.execAll t k (laps r.len n rest) = .ok (x, lapsResp r.len n xs)
  | 0, k, r, s, h, hq, _ => ⟨k, r, s, h, hq, by simp, rfl, fun _ _ _ e => e⟩
  | n + 1, k, r, s, h, hq, hb => by
    have hl := h.len_eq
    rw [hq, List.length_nil, Nat.add_zero] at hl
    rw [Nat.add_mul, Nat.one_mul] at hb
    have hz : min (List.replicate r.len (0 : Byte)).length s.spare.length = r.len := by
      rw [List.length_replicate, hl, Nat.min_self]
    obtain ⟨k1, r1, -, ex1, h1, -, p1, -⟩ := h.write_eq (List.replicate r.len 0)
      (by rw [hz]; omega)
    have hs1 : (s.step (.write (List.replicate r.len 0))).1 =
        ⟨[], List.replicate r.len 0, s.total + r.len⟩ := by
      simp [Win.step, hl, hq]
    rw [hs1] at h1
    rw [hz] at ex1
    have hc := h1.consume_eq r.len
    have h2 := h1.consumed r.len
    simp only [List.nil_append] at h2
    obtain ⟨k', r', s', h3, q3, t3, l3, e3⟩ := laps_exec n h2
      (by simp) (by simp only [p1]; omega)
    simp only [p1] at t3 l3 e3
    refine ⟨k', r', s', h3, q3, by rw [t3, Nat.add_mul, Nat.one_mul]; omega, l3, ?_⟩
    intro rest x xs e
    have := e3 rest x xs e
    simp only [laps, lapsResp, Ring.execAll, ex1, bind, Except.bind, pure, Except.pure]
    simp only [Ring.exec, hc, bind, Except.bind, pure, Except.pure, p1, this]

/-- C16 is false: on a 32-bit target every `Ring` whose capacity does not divide 2^32
eventually answers differently from a FIFO queue (an unread byte is overwritten). -/
theorem C16_ring32_overwrites (c : Bool) (k0 k : Kernel) (wf : Wf ⟨.w32, c⟩ k0) (hint : Nat)
    (hh : hint < 2 ^ 32) (r : Ring) (hr : Ring.new ⟨.w32, c⟩ k0 hint = .ok (k, .ok r))
    (hd : ¬ SeqWrite.writeCapacity r ∣ 2 ^ 32) :
    ∃ ops q rs, fifoRun (SeqWrite.writeCapacity r) [] ops = some (q, rs) ∧
      ∃ k' r' rs', r.execAll ⟨.w32, c⟩ k ops = .ok ((k', r'), rs') ∧ rs' ≠ rs := by
  obtain ⟨o, s, h0, hq0, ht0⟩ : ∃ o s, RingRep ⟨.w32, c⟩ k r o s ∧ s.q = [] ∧ s.total = 0 := by
    obtain ⟨o, h, -, -⟩ := ringRep_new wf hh hr
    exact ⟨o, _, h, rfl, rfl⟩
  simp only [SeqWrite.writeCapacity] at hd ⊢
  have hpos := h0.mirror.len_pos
  have hlim : (⟨.w32, c⟩ : Target).lim = 2 ^ 32 := rfl
  -- the last full lap before 2^32, and what is left
  obtain ⟨N, d, hN, hd0, hdl⟩ : ∃ N d, N * r.len + d = 2 ^ 32 ∧ 0 < d ∧ d < r.len := by
    refine ⟨2 ^ 32 / r.len, 2 ^ 32 % r.len, ?_, ?_, Nat.mod_lt _ hpos⟩
    · rw [Nat.mul_comm]; exact Nat.div_add_mod _ _
    · exact Nat.pos_of_ne_zero fun e => hd (Nat.dvd_of_mod_eq_zero e)
  have hb : posBound ⟨.w32, c⟩ r.len = 2 ^ 32 := by
    unfold posBound
    rw [if_neg (by rw [hlim]; exact hd)]; rfl
  obtain ⟨k1, r1, s1, h1, q1, t1, l1, e1⟩ := laps_exec N h0 hq0 (by rw [hb, ht0]; omega)
  rw [ht0, Nat.zero_add] at t1
  have len1 := h1.len_eq
  rw [q1, List.length_nil, Nat.add_zero, l1] at len1
  -- write `d` zero bytes: the position becomes 2^32
  have hw1 : r1.wpos = N * r.len := by rw [h1.total, t1]
  have hr1 : r1.rpos = N * r.len := by
    have := h1.qlen
    rw [q1, hw1] at this
    simpa using this
  obtain ⟨k2, st2, sd2, -, -⟩ := h1.poked (List.replicate d 0) (by simp; omega)
  have hf2 := h1.feed_eq d (by rw [len1, hw1, lim64]; omega)
  rw [len1, Nat.min_eq_left (Nat.le_of_lt hdl), hw1, hN] at hf2
  have hm2 := h1.mirror.mono sd2
  have ex2 : r1.exec ⟨.w32, c⟩ k1 (.write (List.replicate d 0)) =
      .ok ((k2, { r1 with wpos := 2 ^ 32 }), .num d) := by
    simp only [Ring.exec, Ring.write, writeInto, h1.asWriteSlice_eq, bind, Except.bind,
      List.length_replicate, len1, Nat.min_eq_right (Nat.le_of_lt hdl), SeqWrite.feed]
    rw [if_neg (by omega)]
    simp only [pure, Except.pure]
    rw [List.take_of_length_le (by simp), st2]
    simp only [hf2]
  -- write one byte: it goes to offset 0, although that byte is unread
  obtain ⟨k3, st3, sd3, -, w3⟩ := hm2.store 0 [1] (by simp; omega)
  have hm3 := hm2.mono sd3
  rw [l1] at st3 w3 hm3
  rw [Nat.zero_mod, Nat.add_zero] at st3
  have lt := h0.len_lt
  rw [hlim] at lt
  have rl2 : Ring.readLen ⟨.w32, c⟩ { r1 with wpos := 2 ^ 32 } = .ok d := by
    simp only [Ring.readLen, bind, Except.bind]
    rw [hr1, sub64_ok (by omega)]
    simp only [pure, Except.pure]
    rw [asUsize_ok (by rw [hlim]; omega)]
    congr 1; omega
  have wl2 : Ring.writeLen ⟨.w32, c⟩ { r1 with wpos := 2 ^ 32 } = .ok (r.len - d) := by
    simp only [Ring.writeLen, rl2, bind, Except.bind]
    rw [l1, subU_ok (by omega)]
  have wo2 : Ring.writeOffset ⟨.w32, c⟩ { r1 with wpos := 2 ^ 32 } = .ok 0 := by
    simp only [Ring.writeOffset]
    rw [modU_ok (by rw [l1]; exact hpos), asUsize, hlim, Nat.mod_self, Nat.zero_mod]
  have ex3 : Ring.exec ⟨.w32, c⟩ k2 { r1 with wpos := 2 ^ 32 } (.write [1]) =
      .ok ((k3, { r1 with wpos := 2 ^ 32 + 1 }), .num 1) := by
    have hmin : min (r.len - d) [(1 : Byte)].length = 1 := by
      simp only [List.length_singleton]; omega
    have hmin2 : min 1 (r.len - d) = 1 := by omega
    have ha : asU64 1 = 1 := rfl
    simp only [Ring.exec, Ring.write, writeInto, asWriteSlice, SeqWrite.writeOffset,
      SeqWrite.writeLen, SeqWrite.asWritePtr, wo2, wl2, bind, Except.bind, pure, Except.pure, hmin,
      SeqWrite.feed, Nat.add_zero]
    rw [if_neg (by simp)]
    simp only [List.take_succ_cons, List.take_zero, st3, Ring.feed, wl2, bind, Except.bind, hmin2,
      ha]
    rw [add64_ok (by simp [lim64])]
    rfl
  -- read it back
  have rl3 : Ring.readLen ⟨.w32, c⟩ { r1 with wpos := 2 ^ 32 + 1 } = .ok (d + 1) := by
    simp only [Ring.readLen, bind, Except.bind]
    rw [hr1, sub64_ok (by omega)]
    simp only [pure, Except.pure]
    rw [asUsize_ok (by rw [hlim]; omega)]
    congr 1; omega
  have ro3 : Ring.readOffset ⟨.w32, c⟩ { r1 with wpos := 2 ^ 32 + 1 } = .ok 0 := by
    simp only [Ring.readOffset]
    rw [modU_ok (by rw [l1]; exact hpos), asUsize_ok (by rw [hr1, hlim]; omega), hr1, l1,
      Nat.mul_mod_left]
  have ld3 : k3.loadN r1.ptr 1 = .ok [1] := by
    have := hm3.load 0 1 (by omega)
    rw [Nat.zero_mod, Nat.add_zero, w3] at this
    exact this
  obtain ⟨r4, ex4⟩ : ∃ r4, Ring.exec ⟨.w32, c⟩ k3 { r1 with wpos := 2 ^ 32 + 1 } (.read 1) =
      .ok ((k3, r4), .bytes [1]) := by
    have hmin : min (d + 1) 1 = 1 := by omega
    have hmin2 : min 1 (d + 1) = 1 := by omega
    have ha : asU64 1 = 1 := rfl
    simp only [Ring.exec, Ring.read, readFrom, asReadSlice, SeqRead.readOffset, SeqRead.readLen,
      SeqRead.asReadPtr, ro3, rl3, bind, Except.bind, pure, Except.pure, hmin, SeqRead.consume,
      Nat.add_zero, ld3, Ring.consume, hmin2, ha]
    rw [if_neg (by simp), add64_ok (by rw [hr1, lim64]; omega)]
    exact ⟨_, rfl⟩
  -- the history
  have hexec := e1 [.write (List.replicate d 0), .write [1], .read 1] (k3, r4)
    [.num d, .num 1, .bytes [1]] (by
      simp only [Ring.execAll, ex2, ex3, ex4, bind, Except.bind, pure, Except.pure])
  have hfifo : fifoRun r.len [] [.write (List.replicate d 0), .write [1], .read 1] =
      some ((List.replicate d (0 : Byte) ++ [1]).drop 1, [.num d, .num 1, .bytes [0]]) := by
    obtain ⟨e, he⟩ : ∃ e, d = e + 1 := ⟨d - 1, by omega⟩
    have h2 : min 1 (r.len - d) = 1 := by omega
    simp only [fifoRun, fifoStep, bind, Option.bind, List.nil_append, List.length_nil, Nat.sub_zero,
      List.length_replicate, Nat.min_eq_left (Nat.le_of_lt hdl), pure, List.length_singleton]
    rw [List.take_of_length_le (by simp)]
    simp only [List.length_replicate, h2]
    simp only [he, List.take_succ_cons, List.take_zero, List.replicate_succ, List.cons_append]
  refine ⟨_, _, _, laps_fifo r.len hfifo N, k3, r4, _, hexec, ?_⟩
  intro e
  have inj : ∀ n (a b : List Resp), lapsResp r.len n a = lapsResp r.len n b → a = b := by
    intro n
    induction n with
    | zero => exact fun _ _ e => e
    | succ n ih =>
      intro a b e
      simp only [lapsResp, List.cons.injEq, true_and] at e
      exact ih a b e
  have := inj N _ _ e
  simp at this

-- three pages do not divide 2^32
example : Wf ⟨.w32, false⟩ (demo 0) ∧
    ∃ k r, Ring.new ⟨.w32, false⟩ (demo 0) 12288 = .ok (k, .ok r) ∧
    ¬ SeqWrite.writeCapacity r ∣ 2 ^ 32 := by
  refine ⟨demo_wf 0, ?_⟩
  refine ⟨_, _, rfl, ?_⟩
  have h : ∀ cap, cap = 12288 → ¬ cap ∣ 2 ^ 32 := by rintro _ rfl; decide
  exact h _ rfl

end Vmap
