import Verif.Props.Doc
import Verif.Proofs.BufferStd
/-
Property theorems C155: the examples of `BufWriter::into_inner` and `BufWriter::into_parts`.
-/
namespace Vmap
open Kernel Spec
variable {σ : Type}

/-- `BufWriter::new` on any Unix: an error, or an empty buffer of at least the capacity asked for. -/
theorem bufWriter_new {t : Target} {k : Kernel} (wf : Wf t k) {cap : Nat} (hf : RingFits t k cap)
    (inner : σ) : ∃ k1 res, BufWriter.new t k inner cap = .ok (k1, res) ∧
      ∀ b, res = .ok b → ∃ sp, View t k1 b.buf 0 [] sp ∧ cap ≤ sp.length ∧ b.inner = inner ∧
        b.panicked = false ∧ k1.page = k.page := by
  obtain ⟨k1, res, e1, -, h2⟩ := Ring.make_good wf hf
  cases res with
  | error e =>
    exact ⟨k1, .error e, by simp only [BufWriter.new, e1, bind, Except.bind, pure, Except.pure],
      fun _ h => by cases h⟩
  | ok r =>
    refine ⟨k1, .ok (.fromParts inner r), by
      simp only [BufWriter.new, e1, bind, Except.bind, pure, Except.pure], ?_⟩
    intro b hb
    injection hb with hb
    subst hb
    obtain ⟨m, -, -⟩ := h2 r rfl
    obtain ⟨a1, o, rep, -⟩ := ringRep_make wf ⟨by have := hf.1; omega, fun _ => hf⟩ e1
    refine ⟨_, ⟨a1, o, rep⟩, ?_, rfl, rfl, m.keeps.page⟩
    simpa using m.capacity.2.1

/-- A text shorter than the capacity goes into the empty buffer without any call of the writer. -/
theorem writeAll_short (W : Writer σ) {t : Target} {k : Kernel} {b : BufWriter σ} {sp text : List Byte}
    (v : View t k b.buf 0 [] sp) (hs : text.length < sp.length) (fuel rounds : Nat) :
    ∃ k' buf' sp', b.writeAll W t fuel (rounds + 2) k text = .ok (k', { b with buf := buf' }, [], .ok ()) ∧
      View t k' buf' text.length text sp' ∧ k'.page = k.page ∧ buf'.len = b.buf.len ∧ buf'.ptr = b.buf.ptr := by
  by_cases h0 : text.length = 0
  · obtain rfl := List.eq_nil_of_length_eq_zero h0
    exact ⟨k, b.buf, sp, by simp [BufWriter.writeAll, pure, Except.pure], v, rfl, rfl, rfl⟩
  · have hlen := v.len
    have hb : 0 + min text.length sp.length < posBound t b.buf.len := by
      obtain ⟨o, h1⟩ := v.rep
      have := h1.mirror.fits
      have := t.lim_le_64
      simp only [List.length_nil] at hlen
      unfold posBound
      split <;> omega
    obtain ⟨k1, r1, e1, v1, l1, p1⟩ := v.write text hb
    have hm : min text.length sp.length = text.length := by omega
    rw [hm] at e1
    rw [hm, Nat.zero_add, List.nil_append, List.take_of_length_le (by omega)] at v1
    have hpg : k1.page = k.page := by
      obtain ⟨o, h1⟩ := v.rep
      obtain ⟨k1', r1', e1', -, -, -, -, sd, -⟩ := h1.write_eq text hb
      rw [hm] at e1'
      rw [e1] at e1'
      injection e1' with e1'
      injection e1' with e1' _
      rw [e1']; exact sd.page
    refine ⟨k1, r1, _, ?_, v1, hpg, l1, p1⟩
    obtain ⟨m, hm1⟩ : ∃ m, text.length = m + 1 := ⟨text.length - 1, by omega⟩
    have hg : ¬ text.length > sp.length := by omega
    have hg2 : ¬ text.length ≥ sp.length := by omega
    have hw : b.write W t fuel k text = .ok (k1, { b with buf := r1 }, .ok text.length) := by
      simp only [BufWriter.write, v.writeLen, bind, Except.bind, if_neg hg, BufWriter.writeRest,
        if_neg hg2, e1, pure, Except.pure]
    rw [BufWriter.writeAll]
    simp only [if_neg h0, hw, bind, Except.bind]
    rw [hm1]
    simp only [← hm1, Nat.lt_irrefl, if_false, List.drop_length, BufWriter.writeAll, List.length_nil,
      if_true, pure, Except.pure]

/-- C155: the example of `into_inner`, for any error kind but `Interrupted`, any limit of the writer, any
capacity and any text shorter than the capacity: if the writer takes less than the text, `into_inner`
fails with the writer's error, and the recovered ring holds exactly the bytes the writer did not take;
if the writer takes all of it, `into_inner` returns it. -/
theorem C155_into_inner (t : Target) (k : Kernel) (wf : Wf t k) (cap : Nat) (hf : RingFits t k cap)
    (kind : IoKind) (hk : kind ≠ .interrupted) (limit : Nat) (text : List Byte)
    (short : text.length < cap) (fuel : Nat) :
    ∃ k1 res, BufWriter.new t k limit cap = .ok (k1, res) ∧
      match res with
      | .error e => ∀ rest, Doc.recover t (fuel + 3) k kind limit cap text rest = .ok (k1, .create e)
      | .ok _ =>
        (limit < text.length →
          (∃ k', Doc.recover t (fuel + 3) k kind limit cap text (text.drop limit) = .ok (k', .ok 0)) ∧
          ∀ rest, rest ≠ text.drop limit →
            Doc.recover t (fuel + 3) k kind limit cap text rest = .error .panic) ∧
        (text.length ≤ limit → ∀ rest, ∃ k',
          Doc.recover t (fuel + 3) k kind limit cap text rest =
            .ok (k', .ok (limit - text.length))) := by
  obtain ⟨k1, res, e1, hres⟩ := bufWriter_new wf hf limit
  refine ⟨k1, res, e1, ?_⟩
  cases res with
  | error e => intro rest; simp only [Doc.recover, e1, bind, Except.bind, pure, Except.pure]
  | ok b =>
    obtain ⟨sp, v, hsp, hi, hp, -⟩ := hres b rfl
    obtain ⟨k2, buf2, sp2, e2, v2, -⟩ := writeAll_short (text := text) (Doc.erring kind) v (by omega) (fuel + 3) (fuel + 1)
    have hn0 : ∀ q : List Byte, q.length ≠ 0 → (q.length == 0) = false := fun q h => by simpa using h
    -- one round in which the writer takes something
    constructor
    · intro hlt
      have hflush : ∃ buf3 sp3, BufWriter.flushBuf (Doc.erring kind) t k2 (fuel + 3)
          { b with buf := buf2 } = .ok (⟨buf3, 0, false⟩, .err (.ofKind kind)) ∧
          View t k2 buf3 text.length (text.drop limit) sp3 := by
        by_cases hl0 : limit = 0
        · refine ⟨buf2, sp2, ?_, by rw [hl0]; exact v2⟩
          have hw : (Doc.erring kind).write b.inner text = (limit, .err (.ofKind kind)) := by
            simp [Doc.erring, hi, hl0]
          rw [BufWriter.flushBuf]
          simp only [v2.isEmpty_eq, hn0 text (by omega), bind, Except.bind,
            Bool.false_eq_true, if_false, BufWriter.buffered, v2.readSlice, hw]
          rw [if_neg (show ¬ (IoError.ofKind kind).kind = .interrupted from hk), hl0]
          rfl
        · have hm : min limit text.length = limit := by omega
          obtain ⟨m, hm1⟩ : ∃ m, limit = m + 1 := ⟨limit - 1, by omega⟩
          have hw : (Doc.erring kind).write b.inner text = (0, .ok limit) := by
            simp only [Doc.erring, hi, hm]
            rw [if_neg hl0, Nat.sub_self]
          obtain ⟨r3, e3, v3, -, -⟩ := v2.consume limit
          refine ⟨r3, _, ?_, v3⟩
          have hw2 : (Doc.erring kind).write 0 (text.drop limit) = (0, .err (.ofKind kind)) := by
            simp [Doc.erring]
          rw [BufWriter.flushBuf]
          simp only [v2.isEmpty_eq, hn0 text (by omega), bind, Except.bind,
            Bool.false_eq_true, if_false, BufWriter.buffered, v2.readSlice, hw]
          rw [hm1]
          simp only [← hm1, e3]
          rw [BufWriter.flushBuf]
          simp only [v3.isEmpty_eq, hn0 (text.drop limit) (by simp; omega), bind, Except.bind,
            Bool.false_eq_true, if_false, BufWriter.buffered, v3.readSlice, hw2]
          rw [if_neg (show ¬ (IoError.ofKind kind).kind = .interrupted from hk)]
          rfl
      obtain ⟨buf3, sp3, e3, v3⟩ := hflush
      have hkk : Doc.assert (decide ((IoError.ofKind kind).kind = kind)) = .ok () :=
        Doc.assert_true (decide_eq_true rfl)
      have hat : Doc.assert true = .ok () := rfl
      constructor
      · obtain ⟨k4, e4, -⟩ := C27_ring_drop t k2 buf3 _ v3.at_
        refine ⟨k4, ?_⟩
        simp only [Doc.recover, e1, bind, Except.bind, e2, BufWriter.intoInner, e3, pure, Except.pure,
          BufWriter.intoParts, hkk, v3.readSlice, decide_true, hat, e4]
      · intro rest hr
        simp only [Doc.recover, e1, bind, Except.bind, e2, BufWriter.intoInner, e3, pure, Except.pure,
          BufWriter.intoParts, hkk, v3.readSlice,
          Doc.assert_false (decide_eq_false (fun h => hr (Eq.symm h)))]
    · intro hle rest
      have hflush : ∃ buf3 sp3, BufWriter.flushBuf (Doc.erring kind) t k2 (fuel + 3)
          { b with buf := buf2 } = .ok (⟨buf3, limit - text.length, false⟩, .ok ()) ∧
          View t k2 buf3 text.length [] sp3 := by
        by_cases h0 : text.length = 0
        · obtain rfl := List.eq_nil_of_length_eq_zero h0
          refine ⟨buf2, sp2, ?_, v2⟩
          rw [BufWriter.flushBuf]
          simp only [v2.isEmpty_eq, bind, Except.bind, List.length_nil, beq_self_eq_true,
            if_true, pure, Except.pure, hi, hp, Nat.sub_zero]
        · have hm : min limit text.length = text.length := by omega
          obtain ⟨m, hm1⟩ : ∃ m, text.length = m + 1 := ⟨text.length - 1, by omega⟩
          have hw : (Doc.erring kind).write b.inner text = (limit - text.length, .ok text.length) := by
            simp only [Doc.erring, hi, hm]
            rw [if_neg h0]
          obtain ⟨r3, e3, v3, -, -⟩ := v2.consume text.length
          rw [List.drop_length] at v3
          refine ⟨r3, _, ?_, v3⟩
          rw [BufWriter.flushBuf]
          simp only [v2.isEmpty_eq, hn0 text h0, bind, Except.bind,
            Bool.false_eq_true, if_false, BufWriter.buffered, v2.readSlice, hw]
          rw [hm1]
          simp only [← hm1, e3]
          rw [BufWriter.flushBuf]
          simp only [v3.isEmpty_eq, bind, Except.bind, List.length_nil, beq_self_eq_true,
            if_true, pure, Except.pure]
      obtain ⟨buf3, sp3, e3, v3⟩ := hflush
      obtain ⟨k4, e4, -⟩ := C27_ring_drop t k2 buf3 _ v3.at_
      refine ⟨k4, ?_⟩
      simp only [Doc.recover, e1, bind, Except.bind, e2, BufWriter.intoInner, e3, pure, Except.pure,
        BufWriter.intoParts, e4]

/-- C155: the example of `into_parts`, for any capacity and any text that is not empty and shorter than
the capacity: the flush unwinds, and the ring, wrapped in `WriterPanicked`, holds the whole text.  With
an empty text the `unwrap_err` of the example panics: the writer's `flush` panicked, not its `write`. -/
theorem C155_into_parts (t : Target) (k : Kernel) (wf : Wf t k) (cap : Nat) (hf : RingFits t k cap)
    (text : List Byte) (short : text.length < cap) (fuel : Nat) :
    ∃ k1 res, BufWriter.new t k () cap = .ok (k1, res) ∧
      match res with
      | .error e => Doc.unwind t (fuel + 2) k cap text = .ok (k1, .create e)
      | .ok _ =>
        (text ≠ [] → ∃ k', Doc.unwind t (fuel + 2) k cap text = .ok (k', .ok ())) ∧
        (text = [] → Doc.unwind t (fuel + 2) k cap text = .error .panic) := by
  obtain ⟨k1, res, e1, hres⟩ := bufWriter_new wf hf ()
  refine ⟨k1, res, e1, ?_⟩
  cases res with
  | error e => simp only [Doc.unwind, e1, bind, Except.bind, pure, Except.pure]
  | ok b =>
    obtain ⟨sp, v, hsp, -, hp, -⟩ := hres b rfl
    obtain ⟨k2, buf2, sp2, e2, v2, -⟩ := writeAll_short (text := text) Doc.panicking v (by omega) (fuel + 2) fuel
    have hat : Doc.assert true = .ok () := rfl
    have hw (s : Unit) (d : List Byte) : Doc.panicking.write s d = ((), .panic) := rfl
    have hfl (s : Unit) : Doc.panicking.flush s = ((), .panic) := rfl
    constructor
    · intro hne
      have h0 : (text.length == 0) = false := by
        simpa using hne
      obtain ⟨k4, e4, -⟩ := C27_ring_drop t k2 buf2 _ v2.at_
      refine ⟨k4, ?_⟩
      simp only [Doc.unwind, e1, bind, Except.bind, e2, BufWriter.flush, BufWriter.flushBuf,
        v2.isEmpty_eq, h0, Bool.false_eq_true, if_false, BufWriter.buffered, v2.readSlice, hw, pure,
        Except.pure, hat, BufWriter.intoParts, decide_true, e4]
    · rintro rfl
      simp only [Doc.unwind, e1, bind, Except.bind, e2, BufWriter.flush, BufWriter.flushBuf,
        v2.isEmpty_eq, List.length_nil, beq_self_eq_true, if_true, pure, Except.pure, hfl, hat,
        BufWriter.intoParts, hp]

/-- `flush_buf` into the sending end of a socket: everything gets under way. -/
theorem flush_sender {t : Target} {k : Kernel} (take : Nat → Nat) : ∀ (fuel : Nat) (buf : Ring)
    (n : Nat) (q sp : List Byte) (i : Nat) (sent : List Byte), View t k buf n q sp → q.length < fuel →
    ∃ buf' i' sp', BufWriter.flushBuf (Doc.sender take) t k fuel ⟨buf, (i, sent), false⟩ =
        .ok (⟨buf', (i', sent ++ q), false⟩, .ok ()) ∧ View t k buf' n [] sp'
  | 0, _, _, _, _, _, _, _, h => by omega
  | fuel + 1, buf, n, q, sp, i, sent, v, h => by
    rw [BufWriter.flushBuf]
    by_cases h0 : q.length = 0
    · obtain rfl := List.eq_nil_of_length_eq_zero h0
      refine ⟨buf, i, sp, ?_, v⟩
      simp only [v.isEmpty_eq, List.length_nil, beq_self_eq_true, bind, Except.bind, if_true, pure,
        Except.pure, List.append_nil]
    · obtain ⟨r1, e1, v1, -, -⟩ := v.consume (min q.length (take i + 1))
      obtain ⟨m, hm⟩ : ∃ m, min q.length (take i + 1) = m + 1 := ⟨min q.length (take i + 1) - 1, by omega⟩
      obtain ⟨buf', i', sp', e2, v2⟩ := flush_sender take fuel r1 n _ _ (i + 1)
        (sent ++ q.take (take i + 1)) v1 (by simp; omega)
      refine ⟨buf', i', sp', ?_, v2⟩
      have hq : (q.length == 0) = false := by simpa using h0
      have hw : (Doc.sender take).write (i, sent) q =
        ((i + 1, sent ++ q.take (take i + 1)), .ok (min q.length (take i + 1))) := rfl
      simp only [v.isEmpty_eq, hq, bind, Except.bind, Bool.false_eq_true, if_false, BufWriter.buffered,
        v.readSlice, hw]
      rw [hm] at e1 e2 ⊢
      simp only [e1]
      rw [e2]
      congr 4
      rw [List.append_assoc]
      congr 1
      rw [← hm]
      by_cases hle : q.length ≤ take i + 1
      · rw [Nat.min_eq_left hle, List.take_of_length_le hle, List.drop_length, List.append_nil]
      · rw [Nat.min_eq_right (by omega), List.take_append_drop]

theorem idxOf?_after {d : Byte} {p : List Byte} (h : d ∉ p) (l : List Byte) :
    (p ++ d :: l).idxOf? d = some p.length := by
  induction p with
  | nil => simp [List.idxOf?, List.findIdx?_cons]
  | cons b p ih =>
    simp only [List.mem_cons, not_or] at h
    have := ih h.2
    simp only [List.idxOf?, List.cons_append, List.findIdx?_cons] at this ⊢
    rw [if_neg (by simpa using Ne.symm h.1), this]
    rfl

theorem idxOf?_not {d : Byte} {p : List Byte} (h : d ∉ p) : p.idxOf? d = none := by
  simpa using h

/-- `read_until` from the receiving end of a socket. -/
theorem readUntil_receiver {t : Target} (take : Nat → Nat) (d : Byte) : ∀ (fuel : Nat) (k : Kernel)
    (buf : Ring) (n : Nat) (sp : List Byte) (i : Nat) (acc line rest : List Byte), View t k buf n [] sp →
    d ∉ line → line.length < fuel → n + (line.length + 1 + rest.length) < posBound t buf.len →
    ∃ k' b', BufReader.readUntil (Doc.receiver take) t d fuel k ⟨buf, (i, line ++ d :: rest), 0⟩ acc =
        .ok (k', b', acc ++ line ++ [d], .ok ())
  | 0, _, _, _, _, _, _, _, _, _, _, h, _ => by omega
  | fuel + 1, k, buf, n, sp, i, acc, line, rest, v, hd, h, hb => by
    have hlen := v.len
    have hpos := v.len_pos
    simp only [List.length_nil, Nat.zero_add] at hlen
    obtain ⟨c, hc⟩ : ∃ c, min (min sp.length (line ++ d :: rest).length) (take i + 1) = c := ⟨_, rfl⟩
    have hql : (line ++ d :: rest).length = line.length + 1 + rest.length := by simp; omega
    rw [hql] at hc
    have htl : ((line ++ d :: rest).take c).length = c := by rw [List.length_take, hql]; omega
    obtain ⟨k1, e1, v1⟩ := v.poke ((line ++ d :: rest).take c)
    have hsp : ((line ++ d :: rest).take c).take sp.length ++
        sp.drop ((line ++ d :: rest).take c).length = (line ++ d :: rest).take c ++ sp.drop c := by
      rw [List.take_of_length_le (by omega), htl]
    rw [hsp] at v1
    obtain ⟨r2, e2, v2, l2, -⟩ := v1.feed c (by
      rw [List.length_append, htl, List.length_drop]; omega)
    have hm : min c ((line ++ d :: rest).take c ++ sp.drop c).length = c := by
      rw [List.length_append, htl]; omega
    have hchunk : ((line ++ d :: rest).take c ++ sp.drop c).take c = (line ++ d :: rest).take c := by
      conv => lhs; arg 1; rw [← htl]
      rw [List.take_left]
    rw [hm, hchunk, List.nil_append] at v2
    have hr : (Doc.receiver take).read (i, line ++ d :: rest) sp =
        ((i + 1, (line ++ d :: rest).drop c), .ok c ((line ++ d :: rest).take c)) := by
      simp only [Doc.receiver, hql, hc]
    have hfill : BufReader.fillBuf (Doc.receiver take) t k ⟨buf, (i, line ++ d :: rest), 0⟩ =
        .ok (k1, ⟨r2, (i + 1, (line ++ d :: rest).drop c), 0⟩, .ok ((line ++ d :: rest).take c)) := by
      simp only [BufReader.fillBuf, v.readLen, List.length_nil, bind, Except.bind, Nat.le_refl, if_true,
        v.writeSlice, hr, e1, e2, BufReader.buffer, v2.readSlice, pure, Except.pure]
    simp only [BufReader.readUntil, hfill, bind, Except.bind]
    by_cases hin : line.length < c
    · -- the line ends in this chunk
      obtain ⟨s, hs⟩ : ∃ s, (line ++ d :: rest).take c = line ++ d :: s := by
        refine ⟨rest.take (c - line.length - 1), ?_⟩
        rw [List.take_append, List.take_of_length_le (by omega)]
        obtain ⟨m, hm⟩ : ∃ m, c - line.length = m + 1 := ⟨c - line.length - 1, by omega⟩
        rw [hm]; rfl
      obtain ⟨r3, e3, -⟩ := v2.consume (line.length + 1)
      have htk : (line ++ d :: s).take (line.length + 1) = line ++ [d] := by
        rw [List.take_append, List.take_of_length_le (by omega)]; simp
      simp only [hs, idxOf?_after hd, BufReader.consume, e3, bind, Except.bind, pure, Except.pure, htk]
      exact ⟨_, _, by rw [List.append_assoc]⟩
    · have hs : (line ++ d :: rest).take c = line.take c := by
        rw [List.take_append_of_le_length (by omega)]
      have hdrop : (line ++ d :: rest).drop c = line.drop c ++ d :: rest := by
        rw [List.drop_append_of_le_length (by omega)]
      have hnot : d ∉ line.take c := fun h => hd (List.mem_of_mem_take h)
      rw [hs] at v2
      obtain ⟨r3, e3, v3, l3, -⟩ := v2.consume (line.take c).length
      rw [List.drop_length] at v3
      have hne : ¬ (line.take c).length = 0 := by rw [List.length_take]; omega
      have ih := readUntil_receiver take d fuel k1 r3 _ _ (i + 1) (acc ++ line.take c) (line.drop c) rest v3
        (fun h => hd (List.mem_of_mem_drop h)) (by rw [List.length_drop]; omega)
        (by rw [List.length_drop, l3, l2]; omega)
      obtain ⟨k', b', ih⟩ := ih
      simp only [hs, idxOf?_not hnot, BufReader.consume, e3, bind, Except.bind, pure, Except.pure,
        if_neg hne, hdrop]
      refine ⟨k', b', ih.trans ?_⟩
      simp [List.append_assoc]

/-- C155: the example of `BufWriter` and `BufReader` at the two ends of a socket, for any capacity, any
text shorter than the capacity that has a line, and whatever pieces the two sockets cut it into: the line
that `read_line` returns is the first line of the text.  If one of the two buffers cannot be created,
the program panics (`unwrap`). -/
theorem C155_socket (t : Target) (k : Kernel) (wf : Wf t k) (cap : Nat)
    (fits : 2 * (cap + k.page) < t.lim) (valid : List Byte → Bool) (take take' : Nat → Nat)
    (line rest : List Byte) (one : 10 ∉ line) (utf8 : valid (line ++ [10]) = true)
    (short : (line ++ 10 :: rest).length < cap) (fuel : Nat)
    (enough : (line ++ 10 :: rest).length + 2 ≤ fuel) :
    ∃ k1 res, BufWriter.new t k (0, []) cap = .ok (k1, res) ∧
      match res with
      | .error _ => ∀ expect,
        Doc.relay t fuel k valid take take' cap (line ++ 10 :: rest) expect = .error .panic
      | .ok wr => ∃ k2 wr2 k3 res3,
        wr.writeAll (Doc.sender take) t fuel fuel k1 (line ++ 10 :: rest) = .ok (k2, wr2, [], .ok ()) ∧
        BufReader.new t k2 (0, line ++ 10 :: rest) cap = .ok (k3, res3) ∧
        match res3 with
        | .error _ => ∀ expect,
          Doc.relay t fuel k valid take take' cap (line ++ 10 :: rest) expect = .error .panic
        | .ok _ =>
          (∃ k', Doc.relay t fuel k valid take take' cap (line ++ 10 :: rest) (line ++ [10]) =
            .ok (k', .ok (.ok (line.length + 1)))) ∧
          ∀ expect, expect ≠ line ++ [10] →
            Doc.relay t fuel k valid take take' cap (line ++ 10 :: rest) expect = .error .panic := by
  have hf : RingFits t k cap := ⟨by omega, fun _ => by omega⟩
  obtain ⟨k1, res, e1, hres⟩ := bufWriter_new wf hf ((0, []) : Nat × List Byte)
  refine ⟨k1, res, e1, ?_⟩
  cases res with
  | error e => intro expect; simp only [Doc.relay, e1, bind, Except.bind]
  | ok b =>
    obtain ⟨sp, v, hsp, hi, hp, hpg⟩ := hres b rfl
    obtain ⟨f, rfl⟩ : ∃ f, fuel = f + 2 := ⟨fuel - 2, by omega⟩
    obtain ⟨k2, buf2, sp2, e2, v2, hpg2, -, -⟩ :=
      writeAll_short (text := line ++ 10 :: rest) (Doc.sender take) v (by omega) (f + 2) f
    obtain ⟨buf3, i3, sp3, e3, v3⟩ := flush_sender take (f + 2) buf2 _ _ _ 0 [] v2 (by omega)
    have hb2 : ({ b with buf := buf2 } : BufWriter (Nat × List Byte)) = ⟨buf2, (0, []), false⟩ := by
      rw [← hi, ← hp]
    rw [hb2] at e2
    have hfl : (BufWriter.flush (Doc.sender take) t (f + 2) k2 ⟨buf2, (0, []), false⟩) =
        .ok (⟨buf3, (i3, line ++ 10 :: rest), false⟩, .ok ()) := by
      have hs (x : Nat × List Byte) : (Doc.sender take).flush x = (x, .ok) := rfl
      simp only [BufWriter.flush, e3, bind, Except.bind, hs, pure, Except.pure, List.nil_append]
    have wf2 : Wf t k2 := by
      obtain ⟨o, s, -, -, -, w⟩ := v2.at_.inv
      exact w
    have hf2 : RingFits t k2 cap := ⟨by omega, fun _ => by omega⟩
    obtain ⟨k3, r3, e4, -, h4⟩ := Ring.make_good wf2 hf2
    cases r3 with
    | error e =>
      have e5 : BufReader.new t k2 ((0, line ++ 10 :: rest) : Nat × List Byte) cap =
          .ok (k3, .error e) := by
        simp only [BufReader.new, e4, bind, Except.bind, pure, Except.pure]
      refine ⟨k2, _, k3, .error e, e2, e5, ?_⟩
      intro expect
      simp only [Doc.relay, e1, bind, Except.bind, e2, hfl, e5]
    | ok r =>
      have e5 : BufReader.new t k2 ((0, line ++ 10 :: rest) : Nat × List Byte) cap =
          .ok (k3, .ok ⟨r, (0, line ++ 10 :: rest), 0⟩) := by
        simp only [BufReader.new, e4, bind, Except.bind, pure, Except.pure]
      refine ⟨k2, _, k3, .ok _, e2, e5, ?_⟩
      obtain ⟨m, -, -⟩ := h4 r rfl
      obtain ⟨a1, o, rep, -⟩ := ringRep_make wf2 ⟨by omega, fun _ => hf2⟩ e4
      have v5 : View t k3 r 0 [] (List.replicate r.len 0) := ⟨a1, o, rep⟩
      have hcap := m.capacity.2.1
      have hql : (line ++ 10 :: rest).length = line.length + 1 + rest.length := by simp; omega
      have hroom : 0 + (line.length + 1 + rest.length) < posBound t r.len := by
        have := rep.mirror.fits
        have := t.lim_le_64
        unfold posBound
        split <;> omega
      obtain ⟨k6, b6, e6⟩ := readUntil_receiver take' 10 (f + 2) k3 r 0 _ 0 [] line rest v5 one
        (by omega) hroom
      have hrl : BufReader.readLine (Doc.receiver take') t valid (f + 2) k3
          ⟨r, (0, line ++ 10 :: rest), 0⟩ [] =
          .ok (k6, b6, line ++ [10], .ok (line.length + 1)) := by
        simp only [BufReader.readLine, e6, bind, Except.bind, List.nil_append, utf8, if_true, pure,
          Except.pure, List.length_append, List.length_cons, List.length_nil]
      have hat : Doc.assert true = .ok () := rfl
      constructor
      · refine ⟨k6, ?_⟩
        simp only [Doc.relay, e1, bind, Except.bind, e2, hfl, e5, hrl, decide_true, hat, pure, Except.pure]
      · intro expect hne
        simp only [Doc.relay, e1, bind, Except.bind, e2, hfl, e5, hrl,
          Doc.assert_false (decide_eq_false (fun h => hne (Eq.symm h)))]

-- the examples as documented: "hello\nworld\n" with a limit of 6 leaves "world\n"
example : ([104, 101, 108, 108, 111, 10, 119, 111, 114, 108, 100, 10] : List Byte).drop 6 =
    [119, 111, 114, 108, 100, 10] ∧ RingFits ⟨.w64, true⟩ (demo 0) 4096 ∧
    (IoKind.other 0) ≠ .interrupted ∧
    ∃ k b, BufWriter.new ⟨.w64, true⟩ (demo 0) 6 4096 = .ok (k, .ok b) :=
  ⟨rfl, ⟨by decide +kernel, fun _ => by decide +kernel⟩, by decide, _, _, rfl⟩

-- a text with a line, and buffers that fit
example : (10 : Byte) ∉ ([104, 101, 108, 108, 111] : List Byte) ∧
    2 * (4000 + (demo 0).page) < (⟨.w32, false⟩ : Target).lim ∧
    ([104, 101, 108, 108, 111] ++ 10 :: [119, 10] : List Byte).length < 4000 := by decide +kernel

end Vmap
