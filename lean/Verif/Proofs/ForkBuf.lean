import Verif.Spec.ForkBuf
import Verif.Proofs.ForkRing
import Verif.Proofs.BufWorld
import Verif.Props.BufWriter
import Verif.Props.BufReader
/- Helper lemmas for C136. -/
namespace Vmap
open Kernel Spec
variable {σ : Type} {t : Target}

theorem put_put (f : Family) (p : Who) (k1 k2 : Kernel) : (f.put p k1).put p k2 = f.put p k2 := by
  cases p <;> rfl

theorem put_view (f : Family) (p : Who) : f.put p (f.view p) = f := by
  cases p <;> rfl

/-- Calls on the ring that another function makes are calls on the ring. -/
theorem RingSince.uses {p : Who} {f0 : Family} {r0 : Ring} {s0 : Spec.Win} {o : Obj}
    (g : RingFork t p f0 r0.ptr r0.len o) (a : RingAt t (f0.view p) r0 s0.total)
    (h : RingRep t (f0.view p) r0 o s0) : ∀ {ops : List RingOp} {f : Family} {r : Ring} {s : Spec.Win}
    {k' : Kernel} {r' : Ring} {xs : List Resp} (_ : RingSince t p f0 r0 s0 f r s)
    (_ : r.execAll t (f.view p) ops = .ok ((k', r'), xs))
    (_ : s.total + ops.countP grows * r.len < posBound t r.len),
    ∃ s', RingSince t p f0 r0 s0 (f.put p k') r' s' ∧
      s'.total ≤ s.total + ops.countP grows * r.len ∧ r'.len = r.len := by
  intro ops
  induction ops with
  | nil =>
    intro f r s k' r' xs since run below
    injection run with run; injection run with run _; injection run with run1 run2
    subst run1 run2
    rw [put_view]
    exact ⟨s, since, by omega, rfl⟩
  | cons op ops ih =>
    intro f r s k' r' xs since run below
    simp only [Ring.execAll] at run
    obtain ⟨⟨⟨k1, r1⟩, x⟩, e1, run⟩ := bind_ok run
    obtain ⟨⟨⟨k2, r2⟩, ys⟩, e2, run⟩ := bind_ok run
    injection run with run; injection run with run _; injection run with run1 run2
    subst run1 run2
    obtain ⟨-, -, rep, -⟩ := RingSince.inv since g a h
    have hl := rep.len_eq
    have hc : (op :: ops).countP grows = ops.countP grows + if grows op then 1 else 0 :=
      List.countP_cons
    rw [hc, Nat.add_mul] at below
    have step : (s.step op).1.total ≤ s.total + (if grows op then 1 else 0) * r.len := by
      cases op <;> simp only [Win.step, grows, if_true] <;> first | omega | skip
      all_goals simp
    have b1 : (s.step op).1.total < posBound t (SeqWrite.writeCapacity r) := by
      show _ < posBound t r.len
      omega
    have s1 := since.call b1 e1
    obtain ⟨-, -, rep1, hl1⟩ := RingSince.inv s1 g a h
    obtain ⟨-, -, rep0, hl0⟩ := RingSince.inv since g a h
    have hr : r1.len = r.len := by omega
    obtain ⟨s', s2, ht, hr2⟩ := ih s1 (by rw [(view_put f p k1).1]; exact e2) (by rw [hr]; omega)
    rw [put_put] at s2
    refine ⟨s', s2, ?_, by omega⟩
    rw [hc, Nat.add_mul]
    rw [hr] at ht
    omega

theorem RingSince.uses' {p : Who} {f0 f : Family} {r0 r r' : Ring} {s0 s : Spec.Win} {o : Obj} {k' : Kernel}
    {c : Nat} (since : RingSince t p f0 r0 s0 f r s) (g : RingFork t p f0 r0.ptr r0.len o)
    (a : RingAt t (f0.view p) r0 s0.total) (h : RingRep t (f0.view p) r0 o s0)
    (u : Uses t (f.view p) r c k' r') (below : s.total + c * r.len < posBound t r.len) :
    ∃ s', RingSince t p f0 r0 s0 (f.put p k') r' s' ∧ s'.total ≤ s.total + c * r.len ∧
      r'.len = r.len := by
  obtain ⟨ops, xs, e, hc⟩ := u
  have := Nat.mul_le_mul_right r.len hc
  obtain ⟨s', h1, h2, h3⟩ := RingSince.uses g a h since e (by omega)
  exact ⟨s', h1, by omega, h3⟩

/-- The ring inside a `BufWriter`, and the bytes. -/
theorem WriterSince.inv {W : Writer σ} {fuel : Nat} {p : Who} {f0 f : Family}
    {b0 b : BufWriter (σ × List WriteEvent)} {acc : List Byte} {c : Nat} {s0 : Spec.Win} {o : Obj}
    (tr : WriterSince W t fuel p f0 b0 f b acc c) (g : RingFork t p f0 b0.buf.ptr b0.buf.len o)
    (a : RingAt t (f0.view p) b0.buf s0.total) (h : RingRep t (f0.view p) b0.buf o s0)
    (below : s0.total + c * b0.buf.len < posBound t b0.buf.len) :
    ∃ s, RingSince t p f0 b0.buf s0 f b.buf s ∧ s.total ≤ s0.total + c * b0.buf.len ∧
      b.buf.len = b0.buf.len ∧
      (received b.inner.2 ++ s.q).Perm (received b0.inner.2 ++ s0.q ++ acc) := by
  induction tr with
  | start => exact ⟨s0, .start, by omega, rfl, by simp⟩
  | @call f b acc c op k' b' x _ run ih =>
    rw [Nat.add_mul, Nat.one_mul] at below
    obtain ⟨s, since, ht, hl, pm⟩ := ih (by omega)
    obtain ⟨-, a1, rep, -⟩ := RingSince.inv since g a h
    obtain ⟨k1, b1, y, ev, n', q', sp', e, v, -, l1, lg, pm1, -, -⟩ :=
      wr_step W ⟨a1, o, rep⟩ (by rw [hl]; omega) fuel op
    rw [e] at run
    injection run with run; injection run with run hx; injection run with run1 run2
    subst run1 run2 hx
    obtain ⟨s', s1, ht1, hl1⟩ := RingSince.uses' since g a h (wr_exec_uses e) (by rw [hl]; omega)
    obtain ⟨-, -, rep1, -⟩ := RingSince.inv s1 g a h
    have hq := rep1.fillBuf_eq
    rw [(view_put f p k1).1, v.fillBuf] at hq
    injection hq with hq
    rw [hl] at ht1
    refine ⟨s', s1, by rw [Nat.add_mul, Nat.one_mul]; omega, by omega, ?_⟩
    rw [lg, received_append, List.append_assoc, ← hq]
    refine (pm1.append_left _).trans ?_
    rw [← List.append_assoc, ← List.append_assoc]
    exact pm.append_right _
  | @spared f b acc c act _ spares ih =>
    obtain ⟨s, since, ht, hl, pm⟩ := ih below
    exact ⟨s, since.spared spares, ht, hl, pm⟩
  | @theirs f b acc c act _ elsewhere ih =>
    obtain ⟨s, since, ht, hl, pm⟩ := ih below
    exact ⟨s, since.theirs elsewhere, ht, hl, pm⟩

/-- The ring inside a `BufReader`, and the bytes. -/
theorem ReaderSince.inv {R : Reader σ} {p : Who} {f0 f : Family}
    {b0 b : BufReader (σ × List ReadEvent)} {out : List Byte} {c : Nat} {s0 : Spec.Win} {o : Obj}
    (tr : ReaderSince R t p f0 b0 f b out c) (g : RingFork t p f0 b0.buf.ptr b0.buf.len o)
    (a : RingAt t (f0.view p) b0.buf s0.total) (h : RingRep t (f0.view p) b0.buf o s0)
    (below : s0.total + c * b0.buf.len < posBound t b0.buf.len) :
    ∃ s, RingSince t p f0 b0.buf s0 f b.buf s ∧ s.total ≤ s0.total + c * b0.buf.len ∧
      b.buf.len = b0.buf.len ∧
      ∃ new, taken b.inner.2 = taken b0.inner.2 ++ new ∧ out ++ s.q = s0.q ++ new := by
  induction tr with
  | start => exact ⟨s0, .start, by omega, rfl, [], by simp, by simp⟩
  | @call f b out c op k' b' x o' _ run ih =>
    rw [Nat.add_mul, Nat.one_mul] at below
    obtain ⟨s, since, ht, hl, new, tk, hn⟩ := ih (by omega)
    obtain ⟨-, a1, rep, -⟩ := RingSince.inv since g a h
    obtain ⟨k1, b1, y, o1, n', q', sp', e, v, -, l1, new1, tk1, hn1⟩ :=
      rd_step R ⟨a1, o, rep⟩ (by rw [hl]; omega) op
    rw [e] at run
    injection run with run; injection run with run hx; injection run with run1 run2
    injection hx with hx ho
    subst run1 run2 hx ho
    obtain ⟨s', s1, ht1, hl1⟩ := RingSince.uses' since g a h (rd_exec_uses e) (by rw [hl]; omega)
    obtain ⟨-, -, rep1, -⟩ := RingSince.inv s1 g a h
    have hq := rep1.fillBuf_eq
    rw [(view_put f p k1).1, v.fillBuf] at hq
    injection hq with hq
    rw [hl] at ht1
    refine ⟨s', s1, by rw [Nat.add_mul, Nat.one_mul]; omega, by omega, new ++ new1,
      by rw [tk1, tk, List.append_assoc], ?_⟩
    rw [← hq, List.append_assoc, hn1, ← List.append_assoc, hn, List.append_assoc]
  | @spared f b out c act _ spares ih =>
    obtain ⟨s, since, ht, hl, pm⟩ := ih below
    exact ⟨s, since.spared spares, ht, hl, pm⟩
  | @theirs f b out c act _ elsewhere ih =>
    obtain ⟨s, since, ht, hl, pm⟩ := ih below
    exact ⟨s, since.theirs elsewhere, ht, hl, pm⟩

theorem ring_drop_eq {k : Kernel} {r : Ring} {n : Nat} {q sp : List Byte} (v : View t k r n q sp)
    (posix : k.mach = false) : r.drop t k = .ok (k.munmap r.ptr (2 * r.len)).1 := by
  obtain ⟨o, s, rep, -, -, w⟩ := v.at_.inv
  have m := rep.mirror
  have hlim : 2 * r.len < t.lim := by
    have h1 := m.fits
    have h2 := m.len_pos
    obtain ⟨e, he, -⟩ := m.shows' 0 (by omega)
    have h3 := w.addr _ e he
    have h4 : 0 < r.ptr := by
      apply Nat.pos_of_ne_zero
      intro h0
      rw [h0, Nat.zero_add, Nat.zero_div] at h3
      omega
    omega
  have hm : mulU t 2 r.len = .ok (2 * r.len) := by
    simp only [mulU, mulL, if_pos hlim]
  have hu : ∀ x : Sys Unit, (wrapErr .unmap x).1 = x.1 := by
    rintro ⟨k, _ | _⟩ <;> rfl
  simp only [Ring.drop, Os.unmapRing, posix, Bool.false_eq_true, if_false, Posix.unmapRing, hm, bind, Except.bind, pure, Except.pure, Unix.unmap, hu]

/-- A flush that finds a willing writer delivers everything. -/
theorem flush_taker {W : Writer σ} (all : TakesAll W) {k : Kernel}
    {b : BufWriter (σ × List WriteEvent)} {n : Nat} {q sp : List Byte} (v : View t k b.buf n q sp)
    (fuel : Nat) :
    ∃ b' sp', BufWriter.flushBuf W.spy t k (fuel + 2) b = .ok (b', .ok ()) ∧
      View t k b'.buf n [] sp' ∧ b'.buf.len = b.buf.len ∧ b'.buf.ptr = b.buf.ptr ∧
      received b'.inner.2 = received b.inner.2 ++ q := by
  rw [BufWriter.flushBuf]
  simp only [v.isEmpty_eq, BufWriter.buffered, v.readSlice, bind, Except.bind]
  by_cases hq : q = []
  · subst hq
    exact ⟨b, sp, by simp [pure, Except.pure], v, rfl, rfl, by simp⟩
  have hne : (q.length == 0) = false := by simp [hq]
  rw [hne]
  simp only [Bool.false_eq_true, if_false]
  have ha := all b.inner.1 q
  cases hr : W.write b.inner.1 q with
  | mk s' resp =>
    rw [hr] at ha
    simp only at ha
    subst ha
    rw [spy_write hr]
    obtain ⟨m, hm⟩ : ∃ m, q.length = m + 1 := ⟨q.length - 1, by
      have := List.length_pos_iff.mpr hq; omega⟩
    obtain ⟨r', e, v', l, p⟩ := v.consume (m + 1)
    rw [hm]
    simp only [e]
    rw [List.drop_of_length_le (by omega)] at v'
    refine ⟨⟨r', (s', b.inner.2 ++ [.write q (.ok (m + 1))]), false⟩, _, ?_, v', l, p, ?_⟩
    · rw [BufWriter.flushBuf]
      simp only [v'.isEmpty_eq, bind, Except.bind]
      rfl
    · simp only [received_append, received_one, WriteEvent.bytes, ← hm, List.take_length]

/-- A drop that finds a willing writer delivers everything, and ends with unmapping the ring. -/
theorem drop_taker {W : Writer σ} (all : TakesAll W) {k : Kernel} {b : BufWriter (σ × List WriteEvent)}
    {n : Nat} {q sp : List Byte} (v : View t k b.buf n q sp) (posix : k.mach = false)
    (ok : b.panicked = false) (fuel : Nat) :
    ∃ inner, b.drop W.spy t (fuel + 2) k =
        .ok ((k.munmap b.buf.ptr (2 * b.buf.len)).1, inner, .ok ()) ∧
      received inner.2 = received b.inner.2 ++ q := by
  obtain ⟨b', sp', e, v', l, p, hr⟩ := flush_taker all v fuel
  refine ⟨b'.inner, ?_, hr⟩
  simp only [BufWriter.drop, ok, Bool.false_eq_true, if_false, e, bind, Except.bind, ring_drop_eq v' posix, l, p,
    pure, Except.pure]

/-- Dropping the ring is, to the other process, one of the things it may do. -/
theorem put_munmap (t : Target) (f : Family) (p : Who) (ptr len : Nat) :
    f.put p ((f.view p).munmap ptr len).1 = f.act t p (.munmap ptr len) := by
  cases p <;> rfl

end Vmap
