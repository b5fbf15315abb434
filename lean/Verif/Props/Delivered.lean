import Verif.Props.BufWriter
/-
Property theorem C134: from `BufWriter::new` to its drop.
-/
namespace Vmap
open Kernel Spec
variable {σ : Type}

/-- The last thing the inner writer said that can make a drop leave bytes behind: it panicked, took
nothing, or failed for good. -/
def Refusal (r : WriteResp) : Prop :=
  r = .panic ∨ r = .ok 0 ∨ ∃ e, r = .err e ∧ e.kind ≠ .interrupted

/-- C134 in full: from `BufWriter::new` to the end of its drop, the inner writer receives exactly the
bytes that were accepted. -/
def C134_full : Prop :=
  ∀ (W : Writer Nat) (t : Target) (fuel : Nat) (k0 k : Kernel), Wf t k0 → ∀ (capacity : Nat),
    RingHint t k0 capacity → ∀ (s0 : Nat) (b : BufWriter (Nat × List WriteEvent)),
    BufWriter.new t k0 (s0, []) capacity = .ok (k, .ok b) → ∀ (ops : List WrOp),
    ops.length * SeqWrite.writeCapacity b.buf < posBound t (SeqWrite.writeCapacity b.buf) →
    ∀ k' b' acc k'' inner, b.execAll W.spy t fuel k ops = .ok ((k', b'), acc) →
      b'.drop W.spy t fuel k' = .ok (k'', inner, .ok ()) →
      (received inner.2).Perm acc

/-- C134 as far as it is true.  For every inner writer and every history, also with panics that are
caught, followed by the drop: what the inner writer has received and what is lost are together what
was accepted, each byte once (and in order, if no write exactly filled the free space, see C58);
bytes are lost only if the last answer of the inner writer was a panic, an error, or zero bytes
taken.  (Missing: the last answer a refusal, for which the full statement is false.) -/
theorem C134_partial (W : Writer σ) (t : Target) (fuel : Nat) (k0 k : Kernel)
    (wf : Wf t k0) (capacity : Nat) (hc : RingHint t k0 capacity) (s0 : σ)
    (b : BufWriter (σ × List WriteEvent))
    (hr : BufWriter.new t k0 (s0, []) capacity = .ok (k, .ok b)) (ops : List WrOp)
    (below : ops.length * SeqWrite.writeCapacity b.buf <
      posBound t (SeqWrite.writeCapacity b.buf)) :
    ∃ k' b' acc k'' inner x lost, b.execAll W.spy t fuel k ops = .ok ((k', b'), acc) ∧
      b'.drop W.spy t fuel k' = .ok (k'', inner, x) ∧
      (received inner.2 ++ lost).Perm acc ∧
      (b.NoExactFit W.spy t fuel k ops → received inner.2 ++ lost = acc) ∧
      (x ≠ .pending → Released t k' k'' b'.buf.ptr (SeqWrite.writeCapacity b'.buf)) ∧
      (x ≠ .pending → lost ≠ [] → ∃ r, lastWrite inner.2 = some r ∧ Refusal r) := by
  obtain ⟨v, hi, hp⟩ := bw_new wf hc hr
  obtain ⟨k', b', acc, ev, n', q, sp', e, v', l, lg, pm, od, pk⟩ := wr_run W fuel ops v
    (by rw [Nat.zero_add]; exact below)
  have pk := pk (by rw [hp, hi]; simp [lastWrite])
  rw [hi, List.nil_append] at lg
  rw [List.nil_append] at pm od
  obtain ⟨k'', inner, x, ev2, e2, lg2, rel, pan, nopan⟩ :=
    C64_drop W t fuel k' b' n' v'.at_ q v'.readSlice
  by_cases hb : b'.panicked = true
  · obtain ⟨hev, hx⟩ := pan hb
    rw [hev, List.append_nil] at lg2
    refine ⟨k', b', acc, k'', inner, x, q, e, e2, ?_, ?_, rel, fun _ _ => ⟨.panic, ?_, .inl rfl⟩⟩
    · rw [lg2, lg]; exact pm
    · rw [lg2, lg]; exact od
    · rw [lg2]; exact pk.mp hb
  · simp only [Bool.not_eq_true] at hb
    obtain ⟨q', y, fl, hy⟩ := nopan hb
    have hs := fl.split
    refine ⟨k', b', acc, k'', inner, x, q', e, e2, ?_, ?_, rel, ?_⟩
    · rw [lg2, lg, received_append, List.append_assoc, ← hs]; exact pm
    · rw [lg2, lg, received_append, List.append_assoc, ← hs]; exact od
    · intro hx hq
      cases fl with
      | done all => exact absurd rfl hq
      | running part all => exact absurd hy hx
      | stopped r part left why =>
        refine ⟨r, ?_, ?_⟩
        · rw [lg2, ← List.append_assoc, lastWrite_write]
        · cases r with
          | ok n => exact .inr (.inl (by rw [why.1]))
          | err e => exact .inr (.inr ⟨e, rfl, why.1⟩)
          | panic => exact .inl rfl

/-- C134, what is lost: bytes accepted after a panic of the inner writer that was caught.  In every
state of a `BufWriter` whose last inner write panicked, a write that fits is accepted with `Ok`,
and the drop that follows reports nothing and delivers none of it. -/
theorem C134_lost_after_panic (W : Writer σ) (t : Target) (fuel : Nat) (k : Kernel)
    (b : BufWriter (σ × List WriteEvent)) (n : Nat) (h : RingAt t k b.buf n) (q : List Byte)
    (hq : b.buffered t k = .ok q) (below : n + SeqWrite.writeCapacity b.buf < posBound t (SeqWrite.writeCapacity b.buf))
    (pan : b.panicked = true) (data : List Byte) (small : q.length + data.length < SeqWrite.writeCapacity b.buf) :
    ∃ k' b' k'' inner, b.write W.spy t fuel k data = .ok (k', b', .ok data.length) ∧
      b'.buffered t k' = .ok (q ++ data) ∧
      b'.drop W.spy t fuel k' = .ok (k'', inner, .ok ()) ∧ inner = b.inner := by
  obtain ⟨q', sp, v⟩ := h.view
  rw [BufWriter.buffered, v.readSlice] at hq
  injection hq with hq
  subst hq
  have hl := v.len
  simp only [SeqWrite.writeCapacity] at small below
  obtain ⟨k', b', x, e, -, -, hc⟩ := writeRest_view W v below data
  rcases hc with ⟨big, -⟩ | ⟨-, hx, hin, hpan, n', sp', -, v'⟩
  · omega
  · subst hx
    obtain ⟨k'', e2, -⟩ := C27_ring_drop t k' b'.buf n' v'.at_
    refine ⟨k', b', k'', b'.inner, ?_, v'.readSlice, ?_, hin⟩
    · simp only [BufWriter.write, v.writeLen, bind, Except.bind]
      rw [if_neg (by omega)]
      exact e
    · simp only [BufWriter.drop, hpan, pan, if_true, e2, bind, Except.bind, pure, Except.pure]

/-- A writer that panics once and then accepts everything. -/
def onceBad : Writer Nat where
  write s data := (s + 1, if s = 0 then .panic else .ok data.length)
  flush s := (s, .ok)

/-- C134 is false: three bytes are written, a flush panics and is caught, two more are written
(`Ok(2)`), and the drop delivers nothing although the writer would take everything by now. -/
theorem C134_false : ¬ C134_full := by
  intro full
  have hlim : RingHint ⟨.w64, true⟩ (demo 0) 5000 := ⟨by simp [Target.lim, Width.bits], fun h => by cases h⟩
  obtain ⟨k, b, e, hcap⟩ := demo_bufwriter (σ := Nat) 0
  obtain ⟨v, hin, hpan⟩ := bw_new (demo_wf 0) hlim e
  generalize List.replicate b.buf.len (0 : Byte) = sp at v
  have hlen : b.buf.len = 8192 := hcap
  have hsp := v.len
  have hb : ∀ n, n ≤ 8192 * 2 → n + b.buf.len < posBound ⟨.w64, true⟩ b.buf.len := by
    intro n hn
    rw [hlen]; simp [posBound, Target.lim, Width.bits, lim64]; omega
  -- three bytes
  obtain ⟨k1, b1, x1, e1, l1, -, c1⟩ := writeRest_view onceBad v (hb 0 (by decide)) [1, 2, 3]
  rcases c1 with ⟨big, -⟩ | ⟨-, hx1, hin1, hp1, n1, sp1, hn1, v1⟩
  · rw [hlen] at big; simp at big
  subst hx1
  have w1 : b.write onceBad.spy ⟨.w64, true⟩ 1 k [1, 2, 3] = .ok (k1, b1, .ok 3) := by
    simp only [BufWriter.write, v.writeLen, bind, Except.bind]
    rw [if_neg (by simp only [List.length_cons, List.length_nil] at hsp ⊢; omega), e1]
    rfl
  -- the flush that panics
  have f1 : b1.flush onceBad.spy ⟨.w64, true⟩ 1 k1 =
      .ok (⟨b1.buf, (1, [.write [1, 2, 3] .panic]), true⟩, .unwound) := by
    have : b1.flushBuf onceBad.spy ⟨.w64, true⟩ k1 1 =
        .ok (⟨b1.buf, (1, [.write [1, 2, 3] .panic]), true⟩, .unwound) := by
      rw [BufWriter.flushBuf]
      simp only [v1.isEmpty_eq, BufWriter.buffered, v1.readSlice, bind, Except.bind, hin1, hin]
      rfl
    simp only [BufWriter.flush, this, bind, Except.bind]
    rfl
  -- two more, and the drop
  have hb2 := hb n1 (by rw [hlen] at hn1; omega)
  obtain ⟨k2, b2, k3, inner, e2, -, e3, hinner⟩ := C134_lost_after_panic onceBad ⟨.w64, true⟩ 1 k1
    ⟨b1.buf, (1, [.write [1, 2, 3] .panic]), true⟩ n1 v1.at_ [1, 2, 3] v1.readSlice
    (by simp only [SeqWrite.writeCapacity, l1]; exact hb2) rfl [4, 5]
    (by simp [SeqWrite.writeCapacity, l1, hlen])
  have run : b.execAll onceBad.spy ⟨.w64, true⟩ 1 k [.write [1, 2, 3], .flush, .write [4, 5]] =
      .ok ((k2, b2), [1, 2, 3, 4, 5]) := by
    simp only [BufWriter.execAll, BufWriter.exec, w1, f1, e2, bind, Except.bind, pure, Except.pure]
    rfl
  have := full onceBad ⟨.w64, true⟩ 1 (demo 0) k (demo_wf 0) 5000 hlim 0 b e _
    (by rw [hcap]; simp [posBound, Target.lim, Width.bits, lim64]) k2 b2 _ k3 inner run e3
  rw [hinner] at this
  exact absurd this.length_eq (show ¬ (0 = 5) by decide)

/-- Non-vacuity of `C134_partial`: a history of two calls on a new writer. -/
example : Wf ⟨.w64, true⟩ (demo 0) ∧
    ∃ k, ∃ b : BufWriter (Nat × List WriteEvent),
    BufWriter.new ⟨.w64, true⟩ (demo 0) (0, []) 5000 = .ok (k, .ok b) ∧
    [WrOp.write [1], .flush].length * SeqWrite.writeCapacity b.buf <
      posBound ⟨.w64, true⟩ (SeqWrite.writeCapacity b.buf) := by
  refine ⟨demo_wf 0, ?_⟩
  obtain ⟨k, b, e, hl⟩ := demo_bufwriter (σ := Nat) 0
  refine ⟨k, b, e, ?_⟩
  rw [hl]; simp [posBound, Target.lim, Width.bits, lim64]

/-- Non-vacuity of `C134_lost_after_panic`: three bytes are buffered, the last write panicked. -/
example : ∃ k, ∃ b : BufWriter (Nat × List WriteEvent), ∃ n, RingAt ⟨.w64, true⟩ k b.buf n ∧
    b.buffered ⟨.w64, true⟩ k = .ok [1, 2, 3] ∧ b.panicked = true ∧
    lastWrite b.inner.2 = some .panic ∧
    n + SeqWrite.writeCapacity b.buf < posBound ⟨.w64, true⟩ (SeqWrite.writeCapacity b.buf) ∧
    [1, 2, 3].length + [4, 5].length < SeqWrite.writeCapacity b.buf := by
  obtain ⟨k, b, n, h, hq, hl, -, -, hn⟩ := demo_bufwriter_at (σ := Nat) 0
  exact ⟨k, ⟨b.buf, (1, [.write [1, 2, 3] .panic]), true⟩, n, h, hq, rfl, rfl, hn, by
    show 3 + 2 < SeqWrite.writeCapacity b.buf
    rw [hl]; decide⟩

end Vmap
