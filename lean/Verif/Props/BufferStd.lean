import Verif.Proofs.BufferStd
/-
Property theorems C83–C87: buffered readers and writers in use — calls passed on to the inner
object, the standard library's `read_exact`, `read_until`, `read_to_end` and `write_all` on top
of them, and what can be done with the error of `into_inner`.

`fuel` and `rounds` bound the rounds of loops; every theorem holds for every bound, and says how
large a bound suffices (`pending` is reported only below it).
-/
namespace Vmap
open Spec Kernel
variable {σ : Type}

/-! ### C83 -/

theorem fillBuf_inv {R : Reader σ} {P : σ → Prop} (hP : ∀ s off, P s → P (R.read s off).1)
    {t : Target} {k k' : Kernel} {b b' : BufReader σ} {x : Out (List Byte)} (h : P b.inner)
    (e : b.fillBuf R t k = .ok (k', b', x)) : P b'.inner := by
  simp only [BufReader.fillBuf, bind, Except.bind, pure, Except.pure] at e
  split at e
  · cases e
  · split at e
    · split at e
      · cases e
      · rename_i old _
        have hh := hP b.inner old h
        split at e
        all_goals rename_i hr
        all_goals rw [hr] at hh
        all_goals repeat' split at e
        all_goals first | (cases e; done) | (injection e with e; injection e with e1 e2; injection e2 with e2 e3; subst e2; exact hh)
    · split at e
      · cases e
      · injection e with e; injection e with e1 e2; injection e2 with e2 e3; subst e2; exact h

theorem read_inv {R : Reader σ} {P : σ → Prop} (hP : ∀ s off, P s → P (R.read s off).1)
    {t : Target} {k k' : Kernel} {b b' : BufReader σ} {dst d : List Byte} {x : Out Nat}
    (h : P b.inner) (e : b.read R t k dst = .ok (k', b', d, x)) : P b'.inner := by
  simp only [BufReader.read, bind, Except.bind, pure, Except.pure] at e
  split at e
  · cases e
  · split at e
    · have hh := hP b.inner dst h
      split at e
      all_goals rename_i hr
      all_goals rw [hr] at hh
      all_goals (injection e with e; injection e with e1 e2; injection e2 with e2 e3; subst e2; exact hh)
    · split at e
      · cases e
      · rename_i v hv
        obtain ⟨k1, b1, x1⟩ := v
        have hh := fillBuf_inv hP h hv
        cases x1 with
        | ok rem =>
          simp only [BufReader.consume, bind, Except.bind, pure, Except.pure] at e
          repeat' split at e
          all_goals first | (cases e; done) | skip
          rename_i v2 hv2
          split at hv2
          · cases hv2
          · injection hv2 with hv2
            injection e with e; injection e with e1 e2; injection e2 with e2 e3
            subst e2 hv2
            exact hh
        | err _ => injection e with e; injection e with e1 e2; injection e2 with e2 e3; subst e2; exact hh
        | unwound => injection e with e; injection e with e1 e2; injection e2 with e2 e3; subst e2; exact hh
        | pending => injection e with e; injection e with e1 e2; injection e2 with e2 e3; subst e2; exact hh

theorem exec_inv {R : Reader σ} {P : σ → Prop} (hP : ∀ s off, P s → P (R.read s off).1)
    {t : Target} {k k' : Kernel} {b b' : BufReader σ} {op : RdOp} {x : RdResp} {out : List Byte}
    (h : P b.inner) (e : b.exec R t k op = .ok ((k', b'), x, out)) : P b'.inner := by
  simp only [BufReader.exec, bind, Except.bind, pure, Except.pure] at e
  split at e
  · cases e
  · cases op with
    | read dst =>
      simp only at e
      split at e
      · cases e
      · rename_i v hv
        obtain ⟨k1, b1, d1, x1⟩ := v
        have := read_inv hP h hv
        injection e with e; injection e with e1 e2; injection e1 with e1 e3; subst e3; exact this
    | fillBuf =>
      simp only at e
      split at e
      · cases e
      · rename_i v hv
        obtain ⟨k1, b1, x1⟩ := v
        have := fillBuf_inv hP h hv
        injection e with e; injection e with e1 e2; injection e1 with e1 e3; subst e3; exact this
    | consume m =>
      simp only [BufReader.consume, bind, Except.bind, pure, Except.pure] at e
      split at e
      · cases e
      · rename_i v hv
        split at hv
        · cases hv
        · injection hv with hv
          injection e with e; injection e with e1 e2; injection e1 with e1 e3
          subst e3 hv; exact h
    | setLowat m =>
      injection e with e; injection e with e1 e2; injection e1 with e1 e3; subst e3; exact h

/-- One call on a `BufReader` whose inner object can also be written to. -/
theorem dx_step (R : Reader σ) (W : Writer σ) {t : Target} {k : Kernel}
    {b : BufReader (Duplex σ)} {n : Nat} {q sp : List Byte} (h : View t k b.buf n q sp)
    (hb : n + b.buf.len < posBound t b.buf.len) (op : DxOp σ) :
    ∃ k' b' out ans n' q' sp', b.execDx R W t k op = .ok ((k', b'), out, ans) ∧
      View t k' b'.buf n' q' sp' ∧ n' ≤ n + b.buf.len ∧ b'.buf.len = b.buf.len ∧
      (∃ new, taken b'.inner.2 = taken b.inner.2 ++ new ∧ out ++ q' = q ++ new) ∧
      b'.inner.1.2 = b.inner.1.2 ++ ans ∧ ans.map WriteEvent.asked = op.asked := by
  cases op with
  | rd op =>
    obtain ⟨k', b', x, out, n', q', sp', e, v, hn, l, hnew⟩ := rd_step R.onFst h hb op
    have hi := exec_inv (R := R.onFst.spy) (P := fun s => s.1.2 = b.inner.1.2)
      (fun s off hs => hs) rfl e
    simp only [BufReader.execDx, e, bind, Except.bind, pure, Except.pure]
    exact ⟨k', b', out, [], n', q', sp', rfl, v, hn, l, hnew, by rw [hi]; simp, rfl⟩
  | write data =>
    exact ⟨k, _, [], _, n, q, sp, rfl, h, by omega, rfl, ⟨[], by
      simp [Writer.onFst], by simp⟩, rfl, rfl⟩
  | flush =>
    exact ⟨k, _, [], _, n, q, sp, rfl, h, by omega, rfl, ⟨[], by
      simp [Writer.onFst], by simp⟩, rfl, rfl⟩
  | inner f =>
    exact ⟨k, _, [], [], n, q, sp, rfl, h, by omega, rfl, ⟨[], by
      simp, by simp⟩, by simp, rfl⟩

theorem dx_run (R : Reader σ) (W : Writer σ) {t : Target} : ∀ (ops : List (DxOp σ)) {k : Kernel}
    {b : BufReader (Duplex σ)} {n : Nat} {q sp : List Byte}, View t k b.buf n q sp →
    n + ops.length * b.buf.len < posBound t b.buf.len →
    ∃ k' b' out ans n' q' sp', b.execDxAll R W t k ops = .ok ((k', b'), out, ans) ∧
      View t k' b'.buf n' q' sp' ∧ n' ≤ n + ops.length * b.buf.len ∧ b'.buf.len = b.buf.len ∧
      (∃ new, taken b'.inner.2 = taken b.inner.2 ++ new ∧ out ++ q' = q ++ new) ∧
      b'.inner.1.2 = b.inner.1.2 ++ ans ∧
      ans.map WriteEvent.asked = (ops.map DxOp.asked).flatten
  | [], k, b, n, q, sp, h, _ =>
    ⟨k, b, [], [], n, q, sp, rfl, h, by simp, rfl, ⟨[], by simp, by simp⟩, by simp, by simp⟩
  | op :: ops, k, b, n, q, sp, h, hb => by
    rw [List.length_cons, Nat.add_mul, Nat.one_mul] at hb ⊢
    obtain ⟨k1, b1, o1, a1, n1, q1, sp1, e1, v1, hn1, l1, ⟨new1, t1, c1⟩, w1, m1⟩ :=
      dx_step R W h (by omega) op
    obtain ⟨k2, b2, o2, a2, n2, q2, sp2, e2, v2, hn2, l2, ⟨new2, t2, c2⟩, w2, m2⟩ :=
      dx_run R W ops v1 (by rw [l1]; omega)
    rw [l1] at hn2 l2
    refine ⟨k2, b2, o1 ++ o2, a1 ++ a2, n2, q2, sp2, ?_, v2, by omega, l2, ⟨new1 ++ new2, ?_, ?_⟩,
      ?_, ?_⟩
    · simp only [BufReader.execDxAll, e1, e2, bind, Except.bind, pure, Except.pure]
    · rw [t2, t1, List.append_assoc]
    · rw [List.append_assoc, c2, ← List.append_assoc, c1, List.append_assoc]
    · rw [w2, w1, List.append_assoc]
    · rw [List.map_append, m1, m2]; rfl

/-- C83: in every history of reads, `fill_buf`, `consume`, `set_lowat`, writes, flushes and anything
else done to the inner object of a `BufReader`: the bytes handed out and buffered are exactly
the bytes that were taken from the inner object, in order; the inner object was written to
exactly what was written, at once, in order and unchanged; and each write and flush returned
what the inner object answered. -/
theorem C83_bufreader_duplex (R : Reader σ) (W : Writer σ) (t : Target) (k0 k : Kernel)
    (wf : Wf t k0) (capacity : Nat) (hc : RingHint t k0 capacity) (s0 : σ) (b : BufReader (Duplex σ))
    (hr : BufReader.new t k0 ((s0, []), []) capacity = .ok (k, .ok b)) (ops : List (DxOp σ))
    (below : ops.length * SeqWrite.writeCapacity b.buf <
      posBound t (SeqWrite.writeCapacity b.buf)) :
    ∃ k' b' out answers q, b.execDxAll R W t k ops = .ok ((k', b'), out, answers) ∧
      b'.buffer t k' = .ok q ∧ out ++ q = taken b'.inner.2 ∧
      b'.inner.1.2 = answers ∧ answers.map WriteEvent.asked = (ops.map DxOp.asked).flatten := by
  simp only [BufReader.new, bind, Except.bind] at hr
  cases hn : Ring.make t k0 capacity with
  | error f => rw [hn] at hr; cases hr
  | ok x =>
    obtain ⟨k1, r⟩ := x
    rw [hn] at hr
    cases r with
    | error e => cases hr
    | ok r =>
      simp only [pure, Except.pure, Except.ok.injEq, Prod.mk.injEq] at hr
      obtain ⟨h1, h2⟩ := hr
      subst h1 h2
      obtain ⟨at0, o, rep, -, -⟩ := ringRep_make wf hc hn
      have v : View t k1 r 0 [] (List.replicate r.len 0) := ⟨at0, o, rep⟩
      obtain ⟨k', b', out, ans, n', q', sp', e, v', -, l, ⟨new, t', c⟩, w, m⟩ := dx_run R W ops v
        (by rw [Nat.zero_add]; exact below)
      refine ⟨k', b', out, ans, q', e, v'.readSlice, ?_, by simpa using w, m⟩
      rw [c, t']; simp [taken]

/-- A socket that answers each written byte with the same byte, for the examples: the state is
what has been written and not yet read. -/
def echoR : Reader (List Byte) where
  read s offered := (s.drop offered.length, .ok (min s.length offered.length) (s.take offered.length))

/-- The writing half of the echo. -/
def echoW : Writer (List Byte) where
  write s data := (s ++ data, .ok data.length)
  flush s := (s, .ok)

example : Wf ⟨.w64, true⟩ (demo 0) ∧
    ∃ k, ∃ b : BufReader (Duplex (List Byte)),
    BufReader.new ⟨.w64, true⟩ (demo 0) (([], []), []) 5000 = .ok (k, .ok b) ∧
    4 * SeqWrite.writeCapacity b.buf < posBound ⟨.w64, true⟩ (SeqWrite.writeCapacity b.buf) ∧
    ([.write [1, 2], .rd (.read [0]), .flush, .inner id] : List (DxOp (List Byte))).length = 4 := by
  refine ⟨demo_wf 0, ?_⟩
  refine ⟨_, _, rfl, ?_, rfl⟩
  have h : ∀ cap, cap = 8192 → 4 * cap < posBound ⟨.w64, true⟩ cap := by
    rintro _ rfl; simp [posBound, Target.lim, Width.bits, lim64]
  exact h _ rfl

/-- C83, the other way around: reading from a `BufWriter`, or doing anything else to its inner
object, sends nothing and loses nothing: the buffered bytes, the memory and the panic flag stay
as they are, no write and no flush of the inner object happens, and a read returns what the
inner object's `read`, offered the caller's own destination, answered. -/
theorem C83_bufwriter_duplex (R : Reader σ) (W : Writer σ) (t : Target) (fuel : Nat) (k : Kernel)
    (b : BufWriter (DuplexW σ)) (n : Nat) (h : RingAt t k b.buf n) (q : List Byte)
    (hq : b.buffered t k = .ok q) (op : DxwOp σ) (hop : ∀ w, op ≠ .wr w) :
    ∃ b' reads, b.execDx R W t fuel k op = .ok ((k, b'), none, reads) ∧
      RingAt t k b'.buf n ∧ b'.buffered t k = .ok q ∧ b'.inner.2 = b.inner.2 ∧
      b'.panicked = b.panicked ∧ b'.inner.1.2 = b.inner.1.2 ++ reads ∧
      match op with
      | .read dst => ∃ r, reads = [⟨dst, r⟩] ∧ R.read b.inner.1.1 dst = (b'.inner.1.1, r)
      | .inner f => reads = [] ∧ b'.inner.1.1 = f b.inner.1.1
      | .wr _ => True := by
  cases op with
  | wr w => exact absurd rfl (hop w)
  | read dst => exact ⟨_, _, rfl, h, hq, rfl, rfl, rfl, _, rfl, rfl⟩
  | inner f => exact ⟨_, _, rfl, h, hq, rfl, rfl, by simp, rfl, rfl⟩

example : ∃ (t : Target) (k : Kernel) (b : BufWriter (DuplexW (List Byte))) (n : Nat),
    RingAt t k b.buf n ∧ b.buffered t k = .ok [1, 2, 3] := by
  obtain ⟨k, r, h, hq⟩ := demo_ringAt_small
  exact ⟨_, k, ⟨r, (([7], []), []), false⟩, 3, h, hq.1⟩

/-! ### C84: `read_exact` -/

/-- C84: `read_exact` on a `BufReader` over any honest reader.  Whatever happens, the bytes put
into the destination followed by the bytes still buffered are the bytes buffered before followed
by those taken from the inner reader.  `Ok`: the whole destination is filled.  `UnexpectedEof`:
nothing is left and the inner reader said end of file.  Any other error is the inner
reader's last answer and not `Interrupted`.  Still running after `fuel` rounds: `fuel` is at
most the number of bytes stored plus the number of calls answered with `Interrupted`. -/
theorem C84_read_exact (R : Reader σ) (honest : R.Honest) (t : Target) (k : Kernel)
    (b : BufReader (σ × List ReadEvent)) (n : Nat) (h : RingAt t k b.buf n) (q : List Byte)
    (hq : b.buffer t k = .ok q) (fuel : Nat) (dst : List Byte)
    (below : n + fuel * SeqWrite.writeCapacity b.buf <
      posBound t (SeqWrite.writeCapacity b.buf)) :
    ∃ k' b' got x n' q' ev, b.readExact R.spy t fuel k [] dst = .ok (k', b', got, x) ∧
      RingAt t k' b'.buf n' ∧ b'.buffer t k' = .ok q' ∧ b'.inner.2 = b.inner.2 ++ ev ∧
      got ++ q' = q ++ taken ev ∧
      match x with
      | .ok () => got.length = dst.length
      | .err e => got.length < dst.length ∧
          ((e = .ofKind .unexpectedEof ∧ q' = [] ∧ SaidEof ev) ∨ SaidErr ev e)
      | .unwound => got.length < dst.length ∧ SaidPanic ev
      | .pending => got.length ≤ dst.length ∧ fuel ≤ got.length + interrupts ev := by
  obtain ⟨q1, sp, v⟩ := h.view
  rw [BufReader.buffer, v.readSlice] at hq
  injection hq with hq
  subst hq
  obtain ⟨k', b', got, x, n', q', sp', ev, e, v', -, -, lg, cons, res⟩ :=
    readExact_view R honest fuel [] dst v below
  exact ⟨k', b', got, x, n', q', ev, e, v'.at_, v'.readSlice, lg, cons, res⟩


-- a reachable BufReader with three bytes buffered, asked for five bytes
example : ∃ k, ∃ b : BufReader (Nat × List ReadEvent), ∃ n, fairReader.Honest ∧
    RingAt ⟨.w64, true⟩ k b.buf n ∧ b.buffer ⟨.w64, true⟩ k = .ok [1, 2, 3] ∧
    n + 10 * SeqWrite.writeCapacity b.buf <
      posBound ⟨.w64, true⟩ (SeqWrite.writeCapacity b.buf) := by
  obtain ⟨k, r, h, hq, hl⟩ := demo_ring_8k
  refine ⟨k, ⟨r, (0, []), 0⟩, 3, ?_, h, hq, ?_⟩
  · intro s offered
    cases offered <;> simp [fairReader]
  · simp only [hl]; simp [posBound, Target.lim, Width.bits, lim64]

/-! ### C85: `read_until` and `read_to_end` -/

/-- C85, `read_until`, over any reader (honest or not): what was appended to the caller's vector
followed by the bytes still buffered are the bytes buffered before followed by those taken
from the inner reader — also on an error.  `Ok`: the appended bytes end with the delimiter and
contain it nowhere else, or they do not contain it, nothing is left and the inner reader said
end of file.  An error is the inner reader's last answer and not `Interrupted`. -/
theorem C85_read_until (R : Reader σ) (t : Target) (k : Kernel)
    (b : BufReader (σ × List ReadEvent)) (n : Nat) (h : RingAt t k b.buf n) (q : List Byte)
    (hq : b.buffer t k = .ok q) (delim : Byte) (fuel : Nat)
    (below : n + fuel * SeqWrite.writeCapacity b.buf <
      posBound t (SeqWrite.writeCapacity b.buf)) :
    ∃ k' b' got x n' q' ev, b.readUntil R.spy t delim fuel k [] = .ok (k', b', got, x) ∧
      RingAt t k' b'.buf n' ∧ b'.buffer t k' = .ok q' ∧ b'.inner.2 = b.inner.2 ++ ev ∧
      got ++ q' = q ++ taken ev ∧
      match x with
      | .ok () => (∃ line, got = line ++ [delim] ∧ delim ∉ line) ∨
          (delim ∉ got ∧ q' = [] ∧ SaidEof ev)
      | .err e => delim ∉ got ∧ SaidErr ev e
      | .unwound => delim ∉ got ∧ SaidPanic ev
      | .pending => delim ∉ got ∧ fuel ≤ got.length + interrupts ev := by
  obtain ⟨q1, sp, v⟩ := h.view
  rw [BufReader.buffer, v.readSlice] at hq
  injection hq with hq
  subst hq
  obtain ⟨k', b', got, x, n', q', sp', ev, e, v', -, -, lg, cons, res⟩ :=
    readUntil_view R delim fuel [] v below
  exact ⟨k', b', got, x, n', q', ev, e, v'.at_, v'.readSlice, lg, cons, res⟩

/-- C85: `read_until` looks no further than it has to: if the delimiter is among the buffered
bytes and more than the low-water mark is buffered, the inner reader is not asked at all. -/
theorem C85_read_until_buffered (R : Reader σ) (t : Target) (k : Kernel)
    (b : BufReader (σ × List ReadEvent)) (n : Nat) (h : RingAt t k b.buf n)
    (line rest : List Byte) (delim : Byte) (hline : delim ∉ line)
    (hq : b.buffer t k = .ok (line ++ delim :: rest))
    (high : b.lowat < (line ++ delim :: rest).length) (fuel : Nat)
    (below : n + SeqWrite.writeCapacity b.buf < posBound t (SeqWrite.writeCapacity b.buf)) :
    ∃ b', b.readUntil R.spy t delim (fuel + 1) k [] = .ok (k, b', line ++ [delim], .ok ()) ∧
      b'.buffer t k = .ok rest ∧ b'.inner = b.inner := by
  obtain ⟨q1, sp, v⟩ := h.view
  rw [BufReader.buffer, v.readSlice] at hq
  injection hq with hq
  subst hq
  obtain ⟨k1, b1, x, e, -, h3⟩ := C54_fill_buf_calls R t k b n h _ v.readSlice below
  obtain ⟨rfl, rfl, rfl⟩ := h3 high
  have hi : (line ++ delim :: rest).idxOf? delim = some line.length := by
    cases hx : (line ++ delim :: rest).idxOf? delim with
    | none => have := idxOf?_none hx; simp at this
    | some i =>
      obtain ⟨pre, post, h1, h2, h4⟩ := idxOf?_some hx
      have : pre = line := by
        rcases List.append_eq_append_iff.mp h1 with ⟨a, h5, h6⟩ | ⟨a, h5, h6⟩
        · cases a with
          | nil => simpa using h5
          | cons c a =>
            simp only [List.cons_append, List.cons.injEq] at h6
            rw [h5, ← h6.1] at h2
            simp at h2
        · cases a with
          | nil => simpa using h5.symm
          | cons c a =>
            simp only [List.cons_append, List.cons.injEq] at h6
            rw [h5, ← h6.1] at hline
            simp at hline
      rw [← h4, this]
  obtain ⟨r2, e2, v2, l2, -⟩ := v.consume (line.length + 1)
  have htk : (line ++ delim :: rest).take (line.length + 1) = line ++ [delim] := by
    simp [List.take_append, List.take_of_length_le]
  have hdr : (line ++ delim :: rest).drop (line.length + 1) = rest := by
    simp [List.drop_append]
  rw [hdr] at v2
  simp only [BufReader.readUntil, e, bind, Except.bind, hi, BufReader.consume, e2, htk]
  exact ⟨_, rfl, v2.readSlice, rfl⟩

/-- C85, `read_to_end`, over any honest reader and for any sizes of destinations: `Ok`: everything
that was buffered and that the inner reader delivered up to its end of file has been appended
and nothing is left.  On an error everything delivered so far has been appended or is still
buffered. -/
theorem C85_read_to_end (R : Reader σ) (honest : R.Honest) (t : Target) (k : Kernel)
    (b : BufReader (σ × List ReadEvent)) (n : Nat) (h : RingAt t k b.buf n) (q : List Byte)
    (hq : b.buffer t k = .ok q) (fuel : Nat) (dst : Nat → List Byte) (hd : ∀ i, dst i ≠ [])
    (below : n + fuel * SeqWrite.writeCapacity b.buf <
      posBound t (SeqWrite.writeCapacity b.buf)) :
    ∃ k' b' got x n' q' ev, b.readToEnd R.spy t fuel dst k [] = .ok (k', b', got, x) ∧
      RingAt t k' b'.buf n' ∧ b'.buffer t k' = .ok q' ∧ b'.inner.2 = b.inner.2 ++ ev ∧
      got ++ q' = q ++ taken ev ∧
      match x with
      | .ok () => q' = [] ∧ SaidEof ev
      | .err e => SaidErr ev e
      | .unwound => SaidPanic ev
      | .pending => fuel ≤ got.length + interrupts ev := by
  obtain ⟨q1, sp, v⟩ := h.view
  rw [BufReader.buffer, v.readSlice] at hq
  injection hq with hq
  subst hq
  obtain ⟨k', b', got, x, n', q', sp', ev, e, v', -, -, lg, cons, res⟩ :=
    readToEnd_view R honest fuel [] dst hd v below
  exact ⟨k', b', got, x, n', q', ev, e, v'.at_, v'.readSlice, lg, cons, res⟩

-- a reachable BufReader holding `[1, 2, 3]`: the line up to 2 is buffered, the mark is 0
example : ∃ k, ∃ b : BufReader (Nat × List ReadEvent), ∃ n,
    RingAt ⟨.w64, true⟩ k b.buf n ∧ b.buffer ⟨.w64, true⟩ k = .ok ([1] ++ 2 :: [3]) ∧
    (2 : Byte) ∉ [(1 : Byte)] ∧ b.lowat < ([1] ++ (2 : Byte) :: [3]).length ∧
    n + 10 * SeqWrite.writeCapacity b.buf <
      posBound ⟨.w64, true⟩ (SeqWrite.writeCapacity b.buf) := by
  obtain ⟨k, r, h, hq, hl⟩ := demo_ring_8k
  refine ⟨k, ⟨r, (0, []), 0⟩, 3, h, hq, by decide, by simp, ?_⟩
  simp only [hl]; simp [posBound, Target.lim, Width.bits, lim64]

/-! ### C86: `write_all` -/

/-- C86: `write_all` on a `BufWriter` over any honest writer.  `acc` is the part of the data that was
accepted, `left` the rest.  Whatever happens, the bytes received by the inner writer and those
buffered are the ones buffered before and the accepted ones, none lost or doubled — and in
this order, unless the data exactly fills the free space while something is buffered (the case
of C58).  `Ok`: everything was accepted.  An error is the inner writer's last answer (not
`Interrupted`), or `WriteZero` after it accepted nothing. -/
theorem C86_write_all (W : Writer σ) (honest : W.Honest) (t : Target) (fuel rounds : Nat)
    (k : Kernel) (b : BufWriter (σ × List WriteEvent)) (n : Nat) (h : RingAt t k b.buf n)
    (q : List Byte) (hq : b.buffered t k = .ok q) (data : List Byte)
    (below : n + rounds * SeqWrite.writeCapacity b.buf <
      posBound t (SeqWrite.writeCapacity b.buf)) :
    ∃ k' b' acc left x ev n' q', b.writeAll W.spy t fuel rounds k data = .ok (k', b', left, x) ∧
      RingAt t k' b'.buf n' ∧ b'.buffered t k' = .ok q' ∧ b'.inner.2 = b.inner.2 ++ ev ∧
      data = acc ++ left ∧ (received ev ++ q').Perm (q ++ acc) ∧
      (q = [] ∨ q.length + data.length ≠ SeqWrite.writeCapacity b.buf →
        received ev ++ q' = q ++ acc) ∧
      match x with
      | .ok () => left = []
      | .err e => left ≠ [] ∧ WriteFailed ev e ∧ e.kind ≠ .interrupted
      | .unwound => left ≠ [] ∧ WritePanicked ev
      | .pending => rounds ≤ acc.length + refused ev ∨ fuel ≤ q.length + refused ev := by
  obtain ⟨q1, sp, v⟩ := h.view
  rw [BufWriter.buffered, v.readSlice] at hq
  injection hq with hq
  subst hq
  have hl := v.len
  obtain ⟨k', b', acc, left, x, ev, n', q', sp', e, v', -, -, lg, hd, pm, ord, res⟩ :=
    writeAll_view W honest fuel rounds data v below
  refine ⟨k', b', acc, left, x, ev, n', q', e, v'.at_, v'.readSlice, lg, hd, pm, ?_, res⟩
  intro hc
  apply ord
  intro hlen
  rcases hc with hc | hc
  · exact hc
  · exact absurd (by simp only [SeqWrite.writeCapacity]; omega) hc

/-- An honest writer accepting at most two bytes at a time, for the example. -/
def twoWriter : Writer (List Byte) where
  write s data := (s ++ data.take 2, .ok (min 2 data.length))
  flush s := (s, .ok)

example : ∃ k, ∃ b : BufWriter (List Byte × List WriteEvent), ∃ n, twoWriter.Honest ∧
    RingAt ⟨.w64, true⟩ k b.buf n ∧ b.buffered ⟨.w64, true⟩ k = .ok [1, 2, 3] ∧
    [(1 : Byte), 2, 3].length + (List.replicate 10000 (9 : Byte)).length ≠
      SeqWrite.writeCapacity b.buf ∧
    n + 10001 * SeqWrite.writeCapacity b.buf <
      posBound ⟨.w64, true⟩ (SeqWrite.writeCapacity b.buf) := by
  obtain ⟨k, r, h, hq, hl⟩ := demo_ring_8k
  refine ⟨k, ⟨r, ([], []), false⟩, 3, ?_, h, hq, ?_, ?_⟩
  · intro s data; simp only [twoWriter]; exact Nat.min_le_right _ _
  · simp only [hl, List.length_replicate]; decide
  · simp only [hl]; simp [posBound, Target.lim, Width.bits, lim64]

/-! ### C87: the error of `into_inner` -/

theorem intoInner_err_buf {W : Writer σ} {t : Target} {fuel : Nat} {k k' : Kernel}
    {b b' : BufWriter (σ × List WriteEvent)} {n : Nat} (h : RingAt t k b.buf n) {e : IoError}
    (run : b.intoInner W.spy t fuel k = .ok (k', .err b' e)) :
    b'.buf.ptr = b.buf.ptr ∧ b'.buf.len = b.buf.len := by
  obtain ⟨q', sp, v⟩ := h.view
  obtain ⟨b1, y, ev, q1, sp1, e1, v1, l1, p1, lg1, fl, pk⟩ := flush_view W fuel v
  simp only [BufWriter.intoInner, e1, bind, Except.bind] at run
  cases y with
  | ok u =>
    simp only at run
    split at run
    · cases run
    · injection run with run; injection run with _ run; cases run
  | err e' =>
    injection run with run; injection run with _ run; injection run with r1 r2
    subst r1
    exact ⟨p1, l1⟩
  | unwound =>
    simp only at run
    split at run
    · cases run
    · injection run with run; injection run with _ run; cases run
  | pending => injection run with run; injection run with _ run; cases run

/-- C87: `into_inner`, tried again and again on the writer inside its error: the inner writer has
received, in order and each once, the buffered bytes, up to those that are still in the
writer inside the last error; after a success all of them, and the ring is unmapped. -/
theorem C87_retry (W : Writer σ) (t : Target) (fuel : Nat) : ∀ (tries : Nat) (k : Kernel)
    (b : BufWriter (σ × List WriteEvent)) (n : Nat) (_ : RingAt t k b.buf n) (q : List Byte)
    (_ : b.buffered t k = .ok q),
    ∃ k' res errs, b.retry W.spy t fuel tries k = .ok (k', res, errs) ∧ errs ≤ tries ∧
      match res with
      | .ok (.ok inner) => received inner.2 = received b.inner.2 ++ q ∧
          Released t k k' b.buf.ptr (SeqWrite.writeCapacity b.buf)
      | .error b' => k' = k ∧ RingAt t k b'.buf n ∧ errs = tries ∧ ∃ sent rest, q = sent ++ rest ∧
          received b'.inner.2 = received b.inner.2 ++ sent ∧ b'.buffered t k = .ok rest ∧
          (tries ≠ 0 → rest ≠ [])
      | _ => True
  | 0, k, b, n, h, q, hq =>
    ⟨k, .error b, 0, rfl, Nat.le_refl _, rfl, h, rfl, [], q, rfl, by simp, hq, by simp⟩
  | tries + 1, k, b, n, h, q, hq => by
    obtain ⟨k1, r, e1, res⟩ := C63_into_inner W t fuel k b n h q hq
    simp only [BufWriter.retry, BufWriter.tryInto, e1, bind, Except.bind, pure, Except.pure]
    cases r with
    | ok inner => exact ⟨k1, _, 0, rfl, by omega, res⟩
    | unwound inner => exact ⟨k1, _, 0, rfl, by omega, trivial⟩
    | pending b' => exact ⟨k1, _, 0, rfl, by omega, trivial⟩
    | err b1 e =>
      obtain ⟨hp, hl⟩ := intoInner_err_buf h e1
      obtain ⟨rfl, h1, sent, rest, r1, r2, r3, r4, r5, r6⟩ := res
      obtain ⟨k2, res2, errs, e2, le2, hres⟩ := C87_retry W t fuel tries k1 b1 n h1 rest r4
      simp only [BufWriter.IntoInnerError.intoInner, e2]
      refine ⟨k2, res2, errs + 1, rfl, by omega, ?_⟩
      cases res2 with
      | ok x =>
        cases x with
        | ok inner =>
          obtain ⟨g1, g2⟩ := hres
          refine ⟨by rw [g1, r3, r2, List.append_assoc], ?_⟩
          simp only [SeqWrite.writeCapacity] at g2 ⊢
          rw [hp, hl] at g2
          exact g2
        | err _ => trivial
        | unwound => trivial
        | pending => trivial
      | error b2 =>
        obtain ⟨g0, g1, g2, sent2, rest2, g3, g4, g5, g6⟩ := hres
        refine ⟨g0, g1, by omega, sent ++ sent2, rest2, by rw [r2, g3, List.append_assoc],
          by rw [g4, r3, List.append_assoc], g5, fun _ => ?_⟩
        by_cases hz : tries = 0
        · subst hz
          simp only [BufWriter.retry, pure, Except.pure, Except.ok.injEq, Prod.mk.injEq,
            Except.error.injEq] at e2
          obtain ⟨-, e3, -⟩ := e2
          subst e3
          rw [r4] at g5
          injection g5 with g5
          rw [← g5]; exact r1
        · exact g6 hz

/-- C87: `into_error` returns the error that `into_inner` failed with, but first — by dropping the
writer inside — offers the undelivered bytes to the inner writer once more (as a flush of the
buffer does, whose own error is ignored), and unmaps the ring.  `error`, `into_inner` and
`into_parts` of the same value touch nothing. -/
theorem C87_into_error (W : Writer σ) (t : Target) (fuel : Nat) (k k1 : Kernel)
    (b : BufWriter (σ × List WriteEvent)) (n : Nat) (h : RingAt t k b.buf n) (q : List Byte)
    (hq : b.buffered t k = .ok q)
    (x : BufWriter.IntoInnerError (σ × List WriteEvent))
    (failed : b.tryInto W.spy t fuel k = .ok (k1, .error x)) :
    ∃ sent rest, q = sent ++ rest ∧ rest ≠ [] ∧
      received x.intoInner.inner.2 = received b.inner.2 ++ sent ∧
      x.intoInner.buffered t k1 = .ok rest ∧ x.intoParts = (x.error, x.intoInner) ∧
      x.error.kind ≠ .interrupted ∧
      ∃ k2 inner y ev rest', x.intoError W.spy t fuel k1 = .ok (k2, inner, y) ∧
        inner.2 = x.intoInner.inner.2 ++ ev ∧ (∃ z, Flush fuel rest ev rest' z) ∧
        rest = received ev ++ rest' ∧
        (y ≠ .pending → Released t k k2 b.buf.ptr (SeqWrite.writeCapacity b.buf)) ∧
        (y = .ok x.error ∨ (y = .unwound ∧ WritePanicked ev) ∨
          (y = .pending ∧ fuel ≤ rest.length + refused ev)) := by
  obtain ⟨k2, r, e1, res⟩ := C63_into_inner W t fuel k b n h q hq
  simp only [BufWriter.tryInto, e1, bind, Except.bind, pure, Except.pure, Except.ok.injEq,
    Prod.mk.injEq] at failed
  obtain ⟨rfl, failed⟩ := failed
  cases r with
  | ok inner => cases failed
  | unwound inner => cases failed
  | pending b' => cases failed
  | err b1 e =>
    injection failed with failed
    subst failed
    obtain ⟨hp, hl⟩ := intoInner_err_buf h e1
    obtain ⟨rfl, h1, sent, rest, r1, r2, r3, r4, r5, r6⟩ := res
    refine ⟨sent, rest, r2, r1, r3, r4, rfl, r6, ?_⟩
    obtain ⟨k3, inner, z, ev, d1, d2, d3, -, d5⟩ := C64_drop W t fuel k2 b1 n h1 rest r4
    obtain ⟨rest', y, fl, hy⟩ := d5 r5
    have hw := fl.why
    simp only [SeqWrite.writeCapacity] at d3 ⊢
    rw [hp, hl] at d3
    simp only [BufWriter.IntoInnerError.intoError, d1, bind, Except.bind, pure, Except.pure]
    refine ⟨k3, inner, _, ev, rest', rfl, d2, ⟨y, fl⟩, fl.split, ?_, ?_⟩
    · intro hy2
      apply d3
      rintro rfl
      exact hy2 rfl
    · cases y with
      | ok u => simp only at hy; subst hy; exact .inl rfl
      | err e' => simp only at hy; subst hy; exact .inl rfl
      | unwound => simp only at hy; subst hy; exact .inr (.inl ⟨rfl, hw⟩)
      | pending => simp only at hy; subst hy; exact .inr (.inr ⟨rfl, hw⟩)

-- a reachable BufWriter holding `[1, 2, 3]` whose `into_inner` fails
example : ∃ k, ∃ b : BufWriter (Unit × List WriteEvent), ∃ n k1 x e,
    RingAt ⟨.w64, true⟩ k b.buf n ∧ b.buffered ⟨.w64, true⟩ k = .ok [1, 2, 3] ∧
    b.tryInto (failWriter e).spy ⟨.w64, true⟩ 9 k = .ok (k1, .error x) := by
  obtain ⟨k, b, b', n, h, hq, e⟩ := failWriter_flush (.ofKind .writeZero) 9
  have e' : b.flush (failWriter (.ofKind .writeZero)).spy ⟨.w64, true⟩ 9 k =
      .ok (b', .err (.ofKind .writeZero)) := by simpa [IoError.ofKind] using e
  simp only [BufWriter.flush, bind, Except.bind] at e'
  cases hf : b.flushBuf (failWriter (.ofKind .writeZero)).spy ⟨.w64, true⟩ k 9 with
  | error f => rw [hf] at e'; cases e'
  | ok v =>
    obtain ⟨b1, x⟩ := v
    rw [hf] at e'
    cases x with
    | ok u => cases e'
    | unwound => cases e'
    | pending => cases e'
    | err er =>
      refine ⟨k, b, n, k, ⟨b1, er⟩, .ofKind .writeZero, h, hq, ?_⟩
      simp only [BufWriter.tryInto, BufWriter.intoInner, hf, bind, Except.bind, pure, Except.pure]

/-! ### C88: `from_parts` -/

/-- C88: a `BufWriter` made by `from_parts` from any reachable ring — also one that already holds
bytes, such as the one out of an earlier writer's `into_parts` — delivers what the ring holds
before anything written later, for any honest or dishonest writer, any history of writes and
flushes without the exact fit of C58; in every history nothing is lost or doubled. -/
theorem C88_from_parts (W : Writer σ) (t : Target) (fuel : Nat) (k : Kernel) (ring : Ring) (n : Nat)
    (h : RingAt t k ring n) (q : List Byte) (hq : ring.fillBuf t k = .ok q) (s0 : σ)
    (ops : List WrOp)
    (below : n + ops.length * SeqWrite.writeCapacity ring <
      posBound t (SeqWrite.writeCapacity ring)) :
    ∃ k' b' acc q', (BufWriter.fromParts (s0, []) ring).execAll W.spy t fuel k ops =
        .ok ((k', b'), acc) ∧
      b'.buffered t k' = .ok q' ∧ (received b'.inner.2 ++ q').Perm (q ++ acc) ∧
      ((BufWriter.fromParts (s0, []) ring).NoExactFit W.spy t fuel k ops →
        received b'.inner.2 ++ q' = q ++ acc) := by
  obtain ⟨q1, sp, v⟩ := h.view
  rw [v.fillBuf] at hq
  injection hq with hq
  subst hq
  obtain ⟨k', b', acc, ev, n', q', sp', e, v', l, lg, pm, ord, -⟩ :=
    wr_run W fuel ops (b := BufWriter.fromParts (s0, []) ring) v below
  have hi : b'.inner.2 = ev := by rw [lg]; simp [BufWriter.fromParts]
  rw [← hi] at pm ord
  exact ⟨k', b', acc, q', e, v'.readSlice, pm, ord⟩

-- a reachable ring that holds `[1, 2, 3]`
example : ∃ k r n, RingAt ⟨.w64, true⟩ k r n ∧ r.fillBuf ⟨.w64, true⟩ k = .ok [1, 2, 3] ∧
    n + [WrOp.write [9], .flush].length * SeqWrite.writeCapacity r <
      posBound ⟨.w64, true⟩ (SeqWrite.writeCapacity r) := by
  obtain ⟨k, r, h, hq, hl⟩ := demo_ring_8k
  refine ⟨k, r, 3, h, hq, ?_⟩
  simp only [hl]; simp [posBound, Target.lim, Width.bits, lim64]

/-- C88: moving a ring from one writer to another with `into_parts` and `from_parts` (after the
first writer reported no panic, or knowingly after one) loses and duplicates nothing: the bytes the
first inner writer received followed by those the second one receives when flushed successfully are
the accepted ones, each once; and in order, if no write exactly filled the free space while
something was buffered (C58). -/
theorem C88_handover (W1 W2 : Writer σ) (t : Target) (fuel : Nat) (k0 k : Kernel) (wf : Wf t k0)
    (capacity : Nat) (hc : RingHint t k0 capacity) (s1 s2 : σ) (b : BufWriter (σ × List WriteEvent))
    (hr : BufWriter.new t k0 (s1, []) capacity = .ok (k, .ok b)) (ops : List WrOp)
    (below : ops.length * SeqWrite.writeCapacity b.buf <
      posBound t (SeqWrite.writeCapacity b.buf)) :
    ∃ k' b' acc, b.execAll W1.spy t fuel k ops = .ok ((k', b'), acc) ∧
      ∀ b2, (BufWriter.fromParts (s2, []) b'.intoParts.2.2).flush W2.spy t fuel k' =
          .ok (b2, .ok ()) →
        (received b'.intoParts.1.2 ++ received b2.inner.2).Perm acc ∧
        (b.NoExactFit W1.spy t fuel k ops →
          received b'.intoParts.1.2 ++ received b2.inner.2 = acc) := by
  obtain ⟨k', b', acc, q, e, hq, hperm, -⟩ :=
    C59_C67_bufwriter_conserves W1 t fuel k0 k wf capacity hc s1 b hr ops below
  refine ⟨k', b', acc, e, ?_⟩
  intro b2 hf
  obtain ⟨k'', b'', acc'', q'', inner, isErr, ring, n, e', hq', hip, -, -, ra, hfill⟩ :=
    C65_into_parts W1 t fuel k0 k wf capacity hc s1 b hr ops below
  rw [e] at e'
  simp only [Except.ok.injEq, Prod.mk.injEq] at e'
  obtain ⟨⟨rfl, rfl⟩, rfl⟩ := e'
  rw [hq] at hq'
  injection hq' with hq'
  subst hq'
  obtain ⟨-, hrec, -⟩ := C60_flush_ok W2 t fuel k' (BufWriter.fromParts (s2, []) b'.intoParts.2.2)
    b2 n (by rw [hip]; exact ra) q (by rw [hip]; exact hfill) hf
  rw [hrec]
  refine ⟨by simpa [BufWriter.fromParts, received, BufWriter.intoParts] using hperm, fun nofit => ?_⟩
  obtain ⟨k1, b1, acc1, q1, e1, hq1, ho⟩ :=
    C58_order_partial W1 t fuel k0 k wf capacity hc s1 b hr ops below nofit
  rw [e] at e1
  simp only [Except.ok.injEq, Prod.mk.injEq] at e1
  obtain ⟨⟨rfl, rfl⟩, rfl⟩ := e1
  rw [hq] at hq1
  injection hq1 with hq1
  subst hq1
  simpa [BufWriter.fromParts, received, BufWriter.intoParts] using ho

-- the hypotheses, with a byte string that stays buffered
example : Wf ⟨.w64, true⟩ (demo 0) ∧
    ∃ k, ∃ b : BufWriter (Unit × List WriteEvent),
    BufWriter.new ⟨.w64, true⟩ (demo 0) ((), []) 5000 = .ok (k, .ok b) ∧
    [WrOp.write [1, 2, 3]].length * SeqWrite.writeCapacity b.buf <
      posBound ⟨.w64, true⟩ (SeqWrite.writeCapacity b.buf) ∧
    b.NoExactFit sinkWriter.spy ⟨.w64, true⟩ 9 k [.write [1, 2, 3]] := by
  refine ⟨demo_wf 0, ?_⟩
  obtain ⟨k, b, e, hl⟩ := demo_bufwriter (σ := Unit) ()
  refine ⟨k, b, e, ?_, ?_, fun _ _ _ _ => trivial⟩
  · rw [hl]; simp [posBound, Target.lim, Width.bits, lim64]
  · have hc : RingHint ⟨.w64, true⟩ (demo 0) 5000 := ⟨by simp [Target.lim, Width.bits], fun h => by cases h⟩
    obtain ⟨v, -, -⟩ := bw_new (demo_wf 0) hc e
    intro data q w _ hq _ _
    rw [BufWriter.buffered, v.readSlice] at hq
    injection hq with hq
    exact hq.symm

end Vmap
