import Verif.Proofs.BufReader
import Verif.Props.Ring
/-
Property theorems C53–C57: `BufReader` over an arbitrary inner reader `R`.

`R.spy` is the same reader, keeping in its state a list of all calls made on it.
-/
namespace Vmap
open Spec Kernel
variable {σ : Type}

/-! ### C53, C57 -/

theorem rd_step (R : Reader σ) {t : Target} {k : Kernel} {b : BufReader (σ × List ReadEvent)}
    {n : Nat} {q sp : List Byte} (h : View t k b.buf n q sp)
    (hb : n + b.buf.len < posBound t b.buf.len) (op : RdOp) :
    ∃ k' b' x out n' q' sp', b.exec R.spy t k op = .ok ((k', b'), x, out) ∧
      View t k' b'.buf n' q' sp' ∧ n' ≤ n + b.buf.len ∧ b'.buf.len = b.buf.len ∧
      ∃ new, taken b'.inner.2 = taken b.inner.2 ++ new ∧ out ++ q' = q ++ new := by
  have hl := h.len
  simp only [BufReader.exec, BufReader.buffer, h.readSlice, bind, Except.bind]
  cases op with
  | read dst =>
    obtain ⟨k', b', d, x, e, hd⟩ := read_view R h hb dst
    simp only [e, pure, Except.pure]
    cases hd with
    | direct s' resp _ _ empty big call res =>
      refine ⟨k, _, _, _, n, q, sp, rfl, h, by omega, rfl, ReadEvent.bytes ⟨dst, resp⟩,
        by rw [taken_append, taken_one], ?_⟩
      rw [empty]
      cases resp with
      | ok m stored =>
        obtain ⟨r1, r2⟩ := res
        rw [r1, r2]
        simp [handed, ReadEvent.bytes, BufReader.storeFront]
      | err e stored =>
        obtain ⟨r1, r2⟩ := res
        rw [r1, r2]
        simp [handed, ReadEvent.bytes]
      | panic stored =>
        obtain ⟨r1, r2⟩ := res
        rw [r1, r2]
        simp [handed, ReadEvent.bytes]
    | buffered _ b1 _ rem sp' n' small fill inner lowat len ptr le view =>
      obtain ⟨_, q1, _, _, _, _, _, ⟨new, hn1, hn2⟩, hx⟩ := fill.after h
      have := hx rem rfl
      subst this
      refine ⟨k', b', _, _, n', _, sp', rfl, view, le, len, new, by rw [inner, hn1], ?_⟩
      have ht := storeFront_take dst (q1.take (min q1.length dst.length)) (by simp; omega)
      rw [List.length_take, Nat.min_eq_left (Nat.min_le_left _ _)] at ht
      simp only [handed, ht]
      rw [← hn2]
      by_cases c : q1.length ≤ dst.length
      · rw [Nat.min_eq_left c, List.take_length, List.drop_eq_nil_of_le c, List.append_nil]
      · rw [Nat.min_eq_right (by omega), List.take_append_drop]
    | failed _ _ e small fill =>
      obtain ⟨n', q1, sp', v, hn, hle, _, ⟨new, hn1, hn2⟩, -⟩ := fill.after h
      exact ⟨k', b', _, _, n', q1, sp', rfl, v, hn, hle, new, hn1, by rw [hn2]; rfl⟩
    | unwound _ _ small fill =>
      obtain ⟨n', q1, sp', v, hn, hle, _, ⟨new, hn1, hn2⟩, -⟩ := fill.after h
      exact ⟨k', b', _, _, n', q1, sp', rfl, v, hn, hle, new, hn1, by rw [hn2]; rfl⟩
  | fillBuf =>
    obtain ⟨k', b', x, e, hf⟩ := fill_view R h hb
    obtain ⟨n', q1, sp', v, hn, hle, _, ⟨new, hn1, hn2⟩, -⟩ := hf.after h
    simp only [e, pure, Except.pure]
    exact ⟨k', b', _, _, n', q1, sp', rfl, v, hn, hle, new, hn1, by rw [hn2]; rfl⟩
  | consume m =>
    obtain ⟨r', e, v, l, -⟩ := h.consume m
    simp only [BufReader.consume, e, bind, Except.bind, pure, Except.pure]
    exact ⟨k, _, _, _, n, _, _, rfl, v, by omega, l, [], by simp, by simp [handed]⟩
  | setLowat m =>
    exact ⟨k, _, _, _, n, q, sp, rfl, h, by omega, rfl, [], by simp [BufReader.setLowat],
      by simp [handed]⟩

theorem rd_run (R : Reader σ) {t : Target} : ∀ (ops : List RdOp) {k : Kernel}
    {b : BufReader (σ × List ReadEvent)} {n : Nat} {q sp : List Byte}, View t k b.buf n q sp →
    n + ops.length * b.buf.len < posBound t b.buf.len →
    ∃ k' b' out n' q' sp', b.execAll R.spy t k ops = .ok ((k', b'), out) ∧
      View t k' b'.buf n' q' sp' ∧ n' ≤ n + ops.length * b.buf.len ∧ b'.buf.len = b.buf.len ∧
      ∃ new, taken b'.inner.2 = taken b.inner.2 ++ new ∧ out ++ q' = q ++ new
  | [], k, b, n, q, sp, h, _ =>
    ⟨k, b, [], n, q, sp, rfl, h, by simp, rfl, [], by simp, by simp⟩
  | op :: ops, k, b, n, q, sp, h, hb => by
    rw [List.length_cons, Nat.add_mul, Nat.one_mul] at hb ⊢
    obtain ⟨k1, b1, x, o1, n1, q1, sp1, e1, v1, hn1, l1, new1, t1, c1⟩ :=
      rd_step R h (by omega) op
    obtain ⟨k2, b2, o2, n2, q2, sp2, e2, v2, hn2, l2, new2, t2, c2⟩ :=
      rd_run R ops v1 (by rw [l1]; omega)
    rw [l1] at hn2 l2
    refine ⟨k2, b2, o1 ++ o2, n2, q2, sp2, ?_, v2, by omega, l2, new1 ++ new2, ?_, ?_⟩
    · simp only [BufReader.execAll, e1, e2, bind, Except.bind, pure, Except.pure]
    · rw [t2, t1, List.append_assoc]
    · rw [List.append_assoc, c2, ← List.append_assoc, c1, List.append_assoc]

/-- C53, C57: after `BufReader::new`, for every reader (honest or not) and every history of calls,
no call panics or faults, the bytes handed out followed by the buffered bytes are exactly the
bytes taken from the inner reader, and at most the capacity is buffered.  (`below`: fewer than
2^64 bytes, counted as calls × capacity.) -/
theorem C53_C57_bufreader_transparent (R : Reader σ) (t : Target) (k0 k : Kernel) (wf : Wf t k0)
    (capacity : Nat) (hc : RingHint t k0 capacity) (s0 : σ) (b : BufReader (σ × List ReadEvent))
    (hr : BufReader.new t k0 (s0, []) capacity = .ok (k, .ok b)) (ops : List RdOp)
    (below : ops.length * SeqWrite.writeCapacity b.buf <
      posBound t (SeqWrite.writeCapacity b.buf)) :
    ∃ k' b' out q, b.execAll R.spy t k ops = .ok ((k', b'), out) ∧ b'.buffer t k' = .ok q ∧
      out ++ q = taken b'.inner.2 ∧ q.length ≤ SeqWrite.writeCapacity b.buf := by
  simp only [BufReader.new, bind, Except.bind] at hr
  cases hn : Ring.make t k0 capacity with
  | error f => rw [hn] at hr; cases hr
  | ok x =>
    obtain ⟨k1, r⟩ := x
    rw [hn] at hr
    cases r with
    | error e => cases hr
    | ok r =>
      simp only [pure, Except.pure, Except.ok.injEq, Prod.mk.injEq] at hr
      obtain ⟨h1, h2⟩ := hr
      subst h1 h2
      obtain ⟨at0, o, rep, -, -⟩ := ringRep_make wf hc hn
      have v : View t k1 r 0 [] (List.replicate r.len 0) := ⟨at0, o, rep⟩
      obtain ⟨k', b', out, n', q', sp', e, v', -, l, new, t', c⟩ := rd_run R ops v
        (by rw [Nat.zero_add]; exact below)
      have hl := v'.len
      refine ⟨k', b', out, q', e, v'.readSlice, ?_, ?_⟩
      · rw [c, t']; simp [taken]
      · simp only [SeqWrite.writeCapacity]; simp only at l; omega

/-- C53, from any reachable state (also with other activity before): one call conserves the
stream and the buffer stays reachable. -/
theorem C53_bufreader_step (R : Reader σ) (t : Target) (k : Kernel)
    (b : BufReader (σ × List ReadEvent)) (n : Nat) (h : RingAt t k b.buf n)
    (below : n + SeqWrite.writeCapacity b.buf < posBound t (SeqWrite.writeCapacity b.buf))
    (op : RdOp) :
    ∃ k' b' x out n' q q', b.buffer t k = .ok q ∧ b.exec R.spy t k op = .ok ((k', b'), x, out) ∧
      RingAt t k' b'.buf n' ∧ n' ≤ n + SeqWrite.writeCapacity b.buf ∧
      b'.buffer t k' = .ok q' ∧
      ∃ new, taken b'.inner.2 = taken b.inner.2 ++ new ∧ out ++ q' = q ++ new := by
  obtain ⟨q, sp, v⟩ := h.view
  obtain ⟨k', b', x, out, n', q', sp', e, v', hn, l, hnew⟩ := rd_step R v below op
  exact ⟨k', b', x, out, n', q, q', v.readSlice, e, v'.at_, hn, v'.readSlice, hnew⟩

/-- A reader delivering the bytes 1, 2, 3, … one at a time, for the examples. -/
def countReader : Reader Nat where
  read s _ := (s + 1, .ok 1 [UInt8.ofNat (s + 1)])

example : Wf ⟨.w64, true⟩ (demo 0) ∧
    ∃ k, ∃ b : BufReader (Nat × List ReadEvent),
    BufReader.new ⟨.w64, true⟩ (demo 0) (0, []) 5000 = .ok (k, .ok b) ∧
    3 * SeqWrite.writeCapacity b.buf < posBound ⟨.w64, true⟩ (SeqWrite.writeCapacity b.buf) ∧
    (countReader.spy.read (0, []) [0, 0]).1.2 = [⟨[0, 0], .ok 1 [1]⟩] := by
  refine ⟨demo_wf 0, ?_⟩
  refine ⟨_, _, rfl, ?_, rfl⟩
  have h : ∀ cap, cap = 8192 → 3 * cap < posBound ⟨.w64, true⟩ cap := by
    rintro _ rfl; simp [posBound, Target.lim, Width.bits, lim64]
  exact h _ rfl

/-- A reachable ring of capacity 8192 holding three bytes, for the examples. -/
theorem demo_ring_8k : ∃ k r, RingAt ⟨.w64, true⟩ k r 3 ∧
    r.fillBuf ⟨.w64, true⟩ k = .ok [1, 2, 3] ∧ SeqWrite.writeCapacity r = 8192 := by
  obtain ⟨k, r, hr⟩ : ∃ k r, Ring.new ⟨.w64, true⟩ (demo 0) 5000 = .ok (k, .ok r) := ⟨_, _, rfl⟩
  have hc : 5000 < (⟨.w64, true⟩ : Target).lim := by simp [Target.lim, Width.bits]
  obtain ⟨hm, -, -⟩ := C15_C25_ring_new _ _ _ (demo_wf 0) _ hc r hr
  have hlen : r.len = 8192 := by
    obtain ⟨h1, h2, h3⟩ := hm.capacity
    have h4 := h3 8192 ⟨2, rfl⟩ (by omega)
    obtain ⟨c, h5⟩ := h1
    simp only [demo] at h5
    omega
  obtain ⟨o, rep, -, -⟩ := ringRep_new (demo_wf 0) hc hr
  have v : View ⟨.w64, true⟩ k r 0 [] (List.replicate r.len 0) :=
    ⟨RingAt.new (demo_wf 0) hc hr, o, rep⟩
  have hm : min [(1 : Byte), 2, 3].length (List.replicate r.len (0 : Byte)).length = 3 := by
    rw [List.length_replicate, hlen]; rfl
  have hd : (12 : Nat) < posBound ⟨.w64, true⟩ r.len := by
    unfold posBound; split <;> simp [lim64, Target.lim, Width.bits]
  obtain ⟨k', r', -, v', l, -⟩ := v.write [1, 2, 3] (by rw [hm]; omega)
  rw [hm] at v'
  have ht : [(1 : Byte), 2, 3].take (List.replicate r.len (0 : Byte)).length = [1, 2, 3] := by
    rw [List.length_replicate, hlen]; rfl
  rw [ht] at v'
  exact ⟨k', r', v'.at_, v'.fillBuf, by simp only [SeqWrite.writeCapacity]; omega⟩

/-- The same, far from the position limit. -/
theorem demo_ringAt_small : ∃ k r, RingAt ⟨.w64, true⟩ k r 3 ∧
    r.fillBuf ⟨.w64, true⟩ k = .ok [1, 2, 3] ∧
    3 + SeqWrite.writeCapacity r < posBound ⟨.w64, true⟩ (SeqWrite.writeCapacity r) := by
  obtain ⟨k, r, h, hq, hl⟩ := demo_ring_8k
  refine ⟨k, r, h, hq, ?_⟩
  rw [hl]; simp [posBound, Target.lim, Width.bits, lim64]

/-! ### C54 -/

/-- C54: `fill_buf` calls the inner reader exactly once — offering all free space — if at most
`lowat` bytes are buffered, and otherwise not at all, returning the buffered bytes. -/
theorem C54_fill_buf_calls (R : Reader σ) (t : Target) (k : Kernel)
    (b : BufReader (σ × List ReadEvent)) (n : Nat) (h : RingAt t k b.buf n) (q : List Byte)
    (hq : b.buffer t k = .ok q)
    (below : n + SeqWrite.writeCapacity b.buf < posBound t (SeqWrite.writeCapacity b.buf)) :
    ∃ k' b' x, b.fillBuf R.spy t k = .ok (k', b', x) ∧
      (q.length ≤ b.lowat → ∃ e, b'.inner.2 = b.inner.2 ++ [e] ∧
        e.offered.length = SeqWrite.writeCapacity b.buf - q.length ∧
        R.read b.inner.1 e.offered = (b'.inner.1, e.resp) ∧
        match e.resp with
        | .ok _ _ => x = .ok (q ++ e.bytes)
        | .err err _ => x = .err err
        | .panic _ => x = .unwound) ∧
      (b.lowat < q.length → k' = k ∧ b' = b ∧ x = .ok q) := by
  obtain ⟨q', sp, v⟩ := h.view
  have hq' := v.readSlice
  rw [BufReader.buffer, hq'] at hq
  injection hq with hq
  subst hq
  have hl := v.len
  obtain ⟨k', b', x, e, hf⟩ := fill_view R v below
  refine ⟨k', b', x, e, ?_, ?_⟩
  · intro hlow
    cases hf with
    | asked _ _ m stored sp' low log call lowat len ptr view =>
      exact ⟨_, log, by simp only [SeqWrite.writeCapacity]; omega, call, rfl⟩
    | failed _ _ e stored sp' low log call lowat buf view =>
      exact ⟨_, log, by simp only [SeqWrite.writeCapacity]; omega, call, rfl⟩
    | unwound _ _ stored sp' low log call lowat buf view =>
      exact ⟨_, log, by simp only [SeqWrite.writeCapacity]; omega, call, rfl⟩
    | enough high => omega
  · intro hhigh
    cases hf with
    | asked _ _ m stored sp' low => omega
    | failed _ _ e stored sp' low => omega
    | unwound _ _ stored sp' low => omega
    | enough high => exact ⟨rfl, rfl, rfl⟩

/-- C54: the mark is the argument of the last `set_lowat`: with `v` set, the inner reader is
asked exactly if at most `v` bytes are buffered.  The buffer is not touched by setting it. -/
theorem C54_set_lowat (R : Reader σ) (t : Target) (k : Kernel)
    (b : BufReader (σ × List ReadEvent)) (n : Nat) (h : RingAt t k b.buf n) (q : List Byte)
    (hq : b.buffer t k = .ok q)
    (below : n + SeqWrite.writeCapacity b.buf < posBound t (SeqWrite.writeCapacity b.buf))
    (v : Nat) :
    (b.setLowat v).buffer t k = .ok q ∧ (b.setLowat v).inner = b.inner ∧
    ∃ k' b' x, (b.setLowat v).fillBuf R.spy t k = .ok (k', b', x) ∧
      (b'.inner.2.length = b.inner.2.length + 1 ↔ q.length ≤ v) ∧
      (b'.inner = b.inner ↔ v < q.length) := by
  obtain ⟨k', b', x, h1, h2, h3⟩ := C54_fill_buf_calls R t k (b.setLowat v) n h q hq below
  refine ⟨hq, rfl, k', b', x, h1, ?_⟩
  by_cases hv : q.length ≤ v
  · obtain ⟨e, he, -⟩ := h2 hv
    have hl : b'.inner.2.length = b.inner.2.length + 1 := by
      rw [he]; simp [BufReader.setLowat]
    refine ⟨⟨fun _ => hv, fun _ => hl⟩, fun h => ?_, fun h => by omega⟩
    rw [h] at hl; omega
  · have hb := (h3 (by show v < q.length; omega)).2.1
    have hi : b'.inner = b.inner := by rw [hb]; rfl
    refine ⟨⟨fun h => ?_, fun h => absurd h hv⟩, fun _ => by omega, fun _ => hi⟩
    rw [hi] at h; omega

/-- C54: a new `BufReader`'s mark is zero: it asks the inner reader when its buffer is empty. -/
theorem C54_new_lowat (t : Target) (k k' : Kernel) (inner : σ) (cap : Nat) (b : BufReader σ)
    (h : BufReader.new t k inner cap = .ok (k', .ok b)) : b.lowat = 0 ∧ b.inner = inner := by
  simp only [BufReader.new, bind, Except.bind] at h
  split at h
  · cases h
  · split at h
    · injection h with h; injection h with _ h; cases h
    · injection h with h; injection h with _ h; injection h with h; subst h; exact ⟨rfl, rfl⟩

/-- A mark of 2 and three buffered bytes: the inner reader is not asked. -/
example : ∃ (t : Target) (k : Kernel) (r : Ring) (n : Nat), RingAt t k r n ∧
    r.fillBuf t k = .ok [1, 2, 3] ∧
    n + SeqWrite.writeCapacity r < posBound t (SeqWrite.writeCapacity r) := by
  obtain ⟨k, r, h⟩ := demo_ringAt_small
  exact ⟨_, k, r, 3, h⟩

/-- C54: `read` gives the destination itself to the inner reader exactly when nothing is buffered
and the destination is at least as large as the capacity; otherwise it asks the inner
reader as `fill_buf` does. -/
theorem C54_read_calls (R : Reader σ) (t : Target) (k : Kernel)
    (b : BufReader (σ × List ReadEvent)) (n : Nat) (h : RingAt t k b.buf n) (q : List Byte)
    (hq : b.buffer t k = .ok q)
    (below : n + SeqWrite.writeCapacity b.buf < posBound t (SeqWrite.writeCapacity b.buf))
    (dst : List Byte) :
    ∃ k' b' d x, b.read R.spy t k dst = .ok (k', b', d, x) ∧
      (q = [] ∧ SeqWrite.writeCapacity b.buf ≤ dst.length →
        ∃ resp, b'.inner.2 = b.inner.2 ++ [⟨dst, resp⟩] ∧ b'.buf = b.buf ∧ k' = k) ∧
      (¬ (q = [] ∧ SeqWrite.writeCapacity b.buf ≤ dst.length) → q.length ≤ b.lowat →
        ∃ e, b'.inner.2 = b.inner.2 ++ [e] ∧
          e.offered.length = SeqWrite.writeCapacity b.buf - q.length) ∧
      (b.lowat < q.length → b'.inner = b.inner) := by
  obtain ⟨q', sp, v⟩ := h.view
  have hq' := v.readSlice
  rw [BufReader.buffer, hq'] at hq
  injection hq with hq
  subst hq
  have hl := v.len
  obtain ⟨k', b', d, x, e, hd⟩ := read_view R v below dst
  refine ⟨k', b', d, x, e, ?_⟩
  simp only [SeqWrite.writeCapacity]
  have key : ∀ b1 x1, Filled R t b n q' sp k k' b1 x1 → b'.inner = b1.inner →
      (q'.length ≤ b.lowat → ∃ e, b'.inner.2 = b.inner.2 ++ [e] ∧
          e.offered.length = b.buf.len - q'.length) ∧
      (b.lowat < q'.length → b'.inner = b.inner) := by
    intro b1 x1 hf hi
    rw [hi]
    cases hf with
    | asked _ _ m stored sp' low log call lowat len ptr view =>
      exact ⟨fun _ => ⟨_, log, by simp only []; omega⟩, fun _ => by omega⟩
    | failed _ _ e stored sp' low log call lowat buf view =>
      exact ⟨fun _ => ⟨_, log, by simp only []; omega⟩, fun _ => by omega⟩
    | unwound _ _ stored sp' low log call lowat buf view =>
      exact ⟨fun _ => ⟨_, log, by simp only []; omega⟩, fun _ => by omega⟩
    | enough high => exact ⟨fun _ => by omega, fun _ => rfl⟩
  cases hd with
  | direct s' resp _ _ empty big call res =>
    refine ⟨fun _ => ⟨resp, rfl, rfl, rfl⟩, fun hn => absurd ⟨empty, big⟩ hn, fun hh => ?_⟩
    rw [empty] at hh; simp at hh
  | buffered _ b1 _ rem sp' n' small fill inner lowat len ptr le view =>
    exact ⟨fun hc => absurd hc small, fun _ => (key _ _ fill inner).1, (key _ _ fill inner).2⟩
  | failed _ _ e small fill =>
    exact ⟨fun hc => absurd hc small, fun _ => (key _ _ fill rfl).1, (key _ _ fill rfl).2⟩
  | unwound _ _ small fill =>
    exact ⟨fun hc => absurd hc small, fun _ => (key _ _ fill rfl).1, (key _ _ fill rfl).2⟩

-- a reachable BufReader with three bytes buffered and room in the position counter
example : ∃ k, ∃ b : BufReader (Nat × List ReadEvent), ∃ n q, RingAt ⟨.w64, true⟩ k b.buf n ∧
    b.buffer ⟨.w64, true⟩ k = .ok q ∧ q = [1, 2, 3] ∧
    n + SeqWrite.writeCapacity b.buf < posBound ⟨.w64, true⟩ (SeqWrite.writeCapacity b.buf) := by
  obtain ⟨k, r, h, hq⟩ := demo_ringAt_small
  exact ⟨k, ⟨r, (0, []), 2⟩, 3, _, h, hq.1, rfl, hq.2⟩

/-- C53: over an honest inner reader `read` never reports more than the destination holds. -/
theorem C53_read_count (R : Reader σ) (honest : R.Honest) (t : Target) (k : Kernel)
    (b : BufReader (σ × List ReadEvent)) (n : Nat) (h : RingAt t k b.buf n)
    (below : n + SeqWrite.writeCapacity b.buf < posBound t (SeqWrite.writeCapacity b.buf))
    (dst : List Byte) (k' : Kernel) (b' : BufReader (σ × List ReadEvent)) (d : List Byte) (m : Nat)
    (run : b.read R.spy t k dst = .ok (k', b', d, .ok m)) :
    m ≤ dst.length ∧ d.length = dst.length := by
  obtain ⟨q', sp, v⟩ := h.view
  obtain ⟨k1, b1, d1, x1, e, hr⟩ := read_view R v below dst
  rw [run] at e
  simp only [Except.ok.injEq, Prod.mk.injEq] at e
  obtain ⟨e1, e2, e3, e4⟩ := e
  subst e1 e2 e3
  have hsf : ∀ st : List Byte, (BufReader.storeFront dst st).length = dst.length := by
    intro st; simp only [BufReader.storeFront, List.length_append, List.length_take,
      List.length_drop]; omega
  cases hr with
  | direct s' resp _ _ empty big call res =>
    have hh := honest b.inner.1 dst
    rw [call] at hh
    cases resp with
    | ok m' stored =>
      rw [res.2] at e4
      injection e4 with e4
      rw [res.1, hsf]
      exact ⟨by rw [e4]; exact hh, rfl⟩
    | err e stored => rw [res.2] at e4; cases e4
    | panic stored => rw [res.2] at e4; cases e4
  | buffered _ b2 _ rem sp' n' small fill inner lowat len ptr le view =>
    injection e4 with e4
    exact ⟨by omega, hsf _⟩
  | failed _ _ e small fill => cases e4
  | unwound _ _ small fill => cases e4

example : countReader.Honest ↔ False := by
  refine ⟨fun h => ?_, False.elim⟩
  have := h 0 []
  simp [countReader] at this

/-- An honest reader delivering the bytes 1, 2, 3, … as far as there is room. -/
def fairReader : Reader Nat where
  read s offered := match offered with
    | [] => (s, .ok 0 [])
    | _ :: _ => (s + 1, .ok 1 [UInt8.ofNat (s + 1)])

example : fairReader.Honest := by
  intro s offered
  cases offered <;> simp [fairReader]

/-! ### C55, C56 -/

/-- C55: `read` into a non-empty destination returns `Ok(0)` only if nothing was buffered and
in that very call the inner reader, offered a non-empty slice, returned `Ok(0)`. -/
theorem C55_read_eof (R : Reader σ) (t : Target) (k : Kernel)
    (b : BufReader (σ × List ReadEvent)) (n : Nat) (h : RingAt t k b.buf n) (q : List Byte)
    (hq : b.buffer t k = .ok q)
    (below : n + SeqWrite.writeCapacity b.buf < posBound t (SeqWrite.writeCapacity b.buf))
    (dst : List Byte) (hd : dst ≠ []) (k' : Kernel) (b' : BufReader (σ × List ReadEvent))
    (d : List Byte) (run : b.read R.spy t k dst = .ok (k', b', d, .ok 0)) :
    q = [] ∧ ∃ e stored, b'.inner.2 = b.inner.2 ++ [e] ∧ e.offered ≠ [] ∧
      e.resp = .ok 0 stored := by
  obtain ⟨q', sp, v⟩ := h.view
  have hq' := v.readSlice
  rw [BufReader.buffer, hq'] at hq
  injection hq with hq
  subst hq
  have hl := v.len
  have hlp := v.len_pos
  have hdl : 0 < dst.length := List.length_pos_iff.mpr hd
  obtain ⟨k1, b1, d1, x1, e, hr⟩ := read_view R v below dst
  rw [run] at e
  simp only [Except.ok.injEq, Prod.mk.injEq] at e
  obtain ⟨e1, e2, e3, e4⟩ := e
  subst e1 e2 e3
  cases hr with
  | direct s' resp _ _ empty big call res =>
    refine ⟨empty, ?_⟩
    cases resp with
    | ok m stored =>
      obtain ⟨-, r2⟩ := res
      rw [r2] at e4
      injection e4 with e4
      subst e4
      exact ⟨_, stored, rfl, hd, rfl⟩
    | err e stored => rw [res.2] at e4; cases e4
    | panic stored => rw [res.2] at e4; cases e4
  | buffered _ b2 _ rem sp' n' small fill inner lowat len ptr le view =>
    injection e4 with e4
    have hrem : rem = [] := List.eq_nil_of_length_eq_zero (by omega)
    subst hrem
    rw [inner]
    generalize hx : Out.ok ([] : List Byte) = x at fill
    cases fill with
    | asked _ _ m stored sp'' low log call lowat len ptr view =>
      injection hx with hx
      have hx' := List.append_eq_nil_iff.mp hx.symm
      obtain ⟨hq0, hb0⟩ := hx'
      refine ⟨hq0, _, stored, log, ?_, ?_⟩
      · intro hs
        simp only at hs
        rw [hq0, hs] at hl
        simp at hl; omega
      · have hlen := congrArg List.length hb0
        simp only [ReadEvent.bytes, List.length_take, List.length_append, List.length_drop,
          List.length_nil] at hlen
        rw [hq0, List.length_nil, Nat.zero_add] at hl
        have : m = 0 := by omega
        rw [this]
    | failed => cases hx
    | unwound => cases hx
    | enough high =>
      injection hx with hx
      rw [← hx] at high
      simp at high
  | failed _ _ e small fill => cases e4
  | unwound _ _ small fill => cases e4

/-- C56: if `read` returns an error (or unwinds), it is the inner reader's, and the buffered
bytes are unchanged. -/
theorem C56_read_error (R : Reader σ) (t : Target) (k : Kernel)
    (b : BufReader (σ × List ReadEvent)) (n : Nat) (h : RingAt t k b.buf n) (q : List Byte)
    (hq : b.buffer t k = .ok q)
    (below : n + SeqWrite.writeCapacity b.buf < posBound t (SeqWrite.writeCapacity b.buf))
    (dst : List Byte) (k' : Kernel) (b' : BufReader (σ × List ReadEvent)) (d : List Byte)
    (x : Out Nat) (run : b.read R.spy t k dst = .ok (k', b', d, x)) (hx : ∀ m, x ≠ .ok m) :
    b'.buffer t k' = .ok q ∧ b'.buf = b.buf ∧ ∃ ev, b'.inner.2 = b.inner.2 ++ [ev] ∧
      ((∃ e stored, x = .err e ∧ ev.resp = .err e stored) ∨
        (∃ stored, x = .unwound ∧ ev.resp = .panic stored)) := by
  obtain ⟨q', sp, v⟩ := h.view
  have hq' := v.readSlice
  rw [BufReader.buffer, hq'] at hq
  injection hq with hq
  subst hq
  obtain ⟨k1, b1, d1, x1, e, hr⟩ := read_view R v below dst
  rw [run] at e
  simp only [Except.ok.injEq, Prod.mk.injEq] at e
  obtain ⟨e1, e2, e3, e4⟩ := e
  subst e1 e2 e3 e4
  cases hr with
  | direct s' resp _ _ empty big call res =>
    refine ⟨hq', rfl, _, rfl, ?_⟩
    cases resp with
    | ok m stored => exact absurd res.2 (hx m)
    | err e stored => exact .inl ⟨e, stored, res.2, rfl⟩
    | panic stored => exact .inr ⟨stored, res.2, rfl⟩
  | buffered _ b2 _ rem sp' n' small fill inner lowat len ptr le view => exact absurd rfl (hx _)
  | failed _ _ e small fill =>
    generalize hx : Out.err e = x at fill
    cases fill with
    | failed _ _ e' stored sp' low log call lowat buf view =>
      injection hx with hx
      subst hx
      exact ⟨view.readSlice, buf, _, log, .inl ⟨_, stored, rfl, rfl⟩⟩
    | asked => cases hx
    | unwound => cases hx
    | enough => cases hx
  | unwound _ _ small fill =>
    generalize hx : (Out.unwound : Out (List Byte)) = x at fill
    cases fill with
    | unwound _ _ stored sp' low log call lowat buf view =>
      exact ⟨view.readSlice, buf, _, log, .inr ⟨stored, rfl, rfl⟩⟩
    | asked => cases hx
    | failed => cases hx
    | enough => cases hx

/-- C56 for `fill_buf`. -/
theorem C56_fill_buf_error (R : Reader σ) (t : Target) (k : Kernel)
    (b : BufReader (σ × List ReadEvent)) (n : Nat) (h : RingAt t k b.buf n) (q : List Byte)
    (hq : b.buffer t k = .ok q)
    (below : n + SeqWrite.writeCapacity b.buf < posBound t (SeqWrite.writeCapacity b.buf))
    (k' : Kernel) (b' : BufReader (σ × List ReadEvent))
    (x : Out (List Byte)) (run : b.fillBuf R.spy t k = .ok (k', b', x)) (hx : ∀ m, x ≠ .ok m) :
    b'.buffer t k' = .ok q ∧ b'.buf = b.buf ∧ ∃ ev, b'.inner.2 = b.inner.2 ++ [ev] ∧
      ((∃ e stored, x = .err e ∧ ev.resp = .err e stored) ∨
        (∃ stored, x = .unwound ∧ ev.resp = .panic stored)) := by
  obtain ⟨q', sp, v⟩ := h.view
  have hq' := v.readSlice
  rw [BufReader.buffer, hq'] at hq
  injection hq with hq
  subst hq
  obtain ⟨k1, b1, x1, e, fill⟩ := fill_view R v below
  rw [run] at e
  simp only [Except.ok.injEq, Prod.mk.injEq] at e
  obtain ⟨e1, e2, e3⟩ := e
  subst e1 e2 e3
  cases fill with
  | failed _ _ e' stored sp' low log call lowat buf view =>
    exact ⟨view.readSlice, buf, _, log, .inl ⟨_, stored, rfl, rfl⟩⟩
  | unwound _ _ stored sp' low log call lowat buf view =>
    exact ⟨view.readSlice, buf, _, log, .inr ⟨stored, rfl, rfl⟩⟩
  | asked => exact absurd rfl (hx _)
  | enough => exact absurd rfl (hx _)

/-- A reader that always fails, for the example. -/
def failReader : Reader Nat where
  read s _ := (s + 1, .err ⟨.other 5, some 5, "io"⟩ [])

-- a reachable BufReader whose `fill_buf` returns an error with three bytes buffered
example : ∃ k, ∃ b : BufReader (Nat × List ReadEvent), ∃ n k' b' e,
    RingAt ⟨.w64, true⟩ k b.buf n ∧ b.buffer ⟨.w64, true⟩ k = .ok [1, 2, 3] ∧
    b.fillBuf failReader.spy ⟨.w64, true⟩ k = .ok (k', b', .err e) := by
  obtain ⟨k, r, h, hq⟩ := demo_ringAt_small
  obtain ⟨k', b', x, run, hlow, -⟩ := C54_fill_buf_calls failReader _ k ⟨r, (0, []), 3⟩ 3 h _ hq.1 hq.2
  obtain ⟨e, -, -, h3, h4⟩ := hlow (by simp)
  have : e.resp = .err ⟨.other 5, some 5, "io"⟩ [] := by
    have := congrArg Prod.snd h3
    exact this.symm
  rw [this] at h4
  simp only at h4
  rw [h4] at run
  exact ⟨k, ⟨r, (0, []), 3⟩, 3, k', b', _, h, hq.1, run⟩

end Vmap
