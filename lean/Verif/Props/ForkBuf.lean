import Verif.Proofs.ForkBuf
import Verif.Props.ForkRing
import Verif.Props.BufWorld
import Verif.Proofs.Ports
/-
Property theorems C136: buffered readers and writers after `fork`.
-/
namespace Vmap
open Kernel Spec

section
variable {σ : Type} {tab : SysTable} {t : Target} {k0 : Kernel}

/-- C136 in full: a program with a `BufWriter` forks; each process drops its copy; the bytes that were
buffered at the moment of the `fork` arrive once (in one of the two logs). -/
def C136_full : Prop :=
  ∀ (tab : SysTable) (t : Target) (k0 : Kernel), Wf t k0 → k0.mach = false → ∀ w : World, Reach tab t k0 w →
    ∀ (W : Writer Nat) (fuel j n : Nat) (b : BufWriter (Nat × List WriteEvent)),
      w.held j = some (.ring b.buf n) → ∀ q, b.buffered t w.k = .ok q → b.inner.2 = [] →
      ∀ p k1 s1 k2 s2, b.drop W.spy t fuel ((Family.fork t w.k).view p) = .ok (k1, s1, .ok ()) →
        b.drop W.spy t fuel (((Family.fork t w.k).put p k1).view p.other) = .ok (k2, s2, .ok ()) →
        (received s1.2 ++ received s2.2).Perm q

/-- C136, the part that holds for a `BufWriter`: after a `fork` one of the two processes goes on using
it, with any inner writer, and the other does whatever it likes (drop its ring, unmap, …) except store
to the ring's addresses (in particular it does not drop its copy of the `BufWriter`, but may forget it
or exit without destructors).  Then every byte that was buffered at the `fork` or accepted since has
been received or is still buffered, each once, and no call panics or faults.  (Missing: both processes
use or drop their copy, for which see `C136_twice` and `C136_overwritten`.) -/
theorem C136_writer_partial (wf : Wf t k0) (_posix : k0.mach = false) {w : World} (reach : Reach tab t k0 w) (W : Writer σ)
    (fuel : Nat) {j n : Nat} {b0 : BufWriter (σ × List WriteEvent)}
    (held : w.held j = some (.ring b0.buf n)) {q0 : List Byte} (buffered : b0.buffered t w.k = .ok q0)
    {p : Who} {f : Family} {b : BufWriter (σ × List WriteEvent)} {acc : List Byte} {c : Nat}
    (since : WriterSince W t fuel p (Family.fork t w.k) b0 f b acc c)
    (below : n + c * SeqWrite.writeCapacity b0.buf < posBound t (SeqWrite.writeCapacity b0.buf)) :
    ∃ q, b.buffered t (f.view p) = .ok q ∧
      (received b.inner.2 ++ q).Perm (received b0.inner.2 ++ q0 ++ acc) ∧
      SeqWrite.writeCapacity b.buf = SeqWrite.writeCapacity b0.buf ∧
      (n + (c + 1) * SeqWrite.writeCapacity b0.buf < posBound t (SeqWrite.writeCapacity b0.buf) →
        ∀ op, ∃ k' b' x, b.exec W.spy t fuel (f.view p) op = .ok ((k', b'), x)) := by
  obtain ⟨a, cl⟩ := (reach.inv wf).live j _ held
  obtain ⟨o, s0, h1, h2, h3, h4⟩ := a.inv
  have hb := h1.fillBuf_eq
  have v0 : View t w.k b0.buf n s0.q s0.spare := ⟨a, o, by subst h2; exact h1⟩
  rw [BufWriter.buffered, v0.readSlice] at buffered
  injection buffered with hq
  subst hq h2
  obtain ⟨g, ap⟩ := RingFork.fork h4 h1.mirror h3 cl p
  obtain ⟨s, rs, ht, hl, pm⟩ := WriterSince.inv since g (a.other ap) (h1.apart h4 ap) below
  obtain ⟨-, b1, b2, b3⟩ := RingSince.inv rs g (a.other ap) (h1.apart h4 ap)
  have v : View t (f.view p) b.buf s.total s.q s.spare := ⟨b1, o, b2⟩
  refine ⟨s.q, v.readSlice, pm, hl, fun below1 op => ?_⟩
  obtain ⟨k', b', x, ev, n', q', sp', e, -⟩ := wr_step W v (by
    simp only [SeqWrite.writeCapacity] at below1
    rw [Nat.add_mul, Nat.one_mul] at below1
    rw [hl]; omega) fuel op
  exact ⟨k', b', x, e⟩

/-- C136, the part that holds for a `BufReader`: the process that uses it is handed the bytes that were
buffered at the `fork`, and then those its inner reader supplies, in order; no call panics or faults. -/
theorem C136_reader_partial (wf : Wf t k0) (_posix : k0.mach = false) {w : World} (reach : Reach tab t k0 w) (R : Reader σ)
    {j n : Nat} {b0 : BufReader (σ × List ReadEvent)}
    (held : w.held j = some (.ring b0.buf n)) {q0 : List Byte} (buffered : b0.buffer t w.k = .ok q0)
    {p : Who} {f : Family} {b : BufReader (σ × List ReadEvent)} {out : List Byte} {c : Nat}
    (since : ReaderSince R t p (Family.fork t w.k) b0 f b out c)
    (below : n + c * SeqWrite.writeCapacity b0.buf < posBound t (SeqWrite.writeCapacity b0.buf)) :
    ∃ q new, b.buffer t (f.view p) = .ok q ∧ taken b.inner.2 = taken b0.inner.2 ++ new ∧
      out ++ q = q0 ++ new ∧ SeqWrite.writeCapacity b.buf = SeqWrite.writeCapacity b0.buf ∧
      (n + (c + 1) * SeqWrite.writeCapacity b0.buf < posBound t (SeqWrite.writeCapacity b0.buf) →
        ∀ op, ∃ k' b' x o, b.exec R.spy t (f.view p) op = .ok ((k', b'), x, o)) := by
  obtain ⟨a, cl⟩ := (reach.inv wf).live j _ held
  obtain ⟨o, s0, h1, h2, h3, h4⟩ := a.inv
  have v0 : View t w.k b0.buf n s0.q s0.spare := ⟨a, o, by subst h2; exact h1⟩
  rw [BufReader.buffer, v0.readSlice] at buffered
  injection buffered with hq
  subst hq h2
  obtain ⟨g, ap⟩ := RingFork.fork h4 h1.mirror h3 cl p
  obtain ⟨s, rs, ht, hl, new, tk, hn⟩ := ReaderSince.inv since g (a.other ap) (h1.apart h4 ap) below
  obtain ⟨-, b1, b2, b3⟩ := RingSince.inv rs g (a.other ap) (h1.apart h4 ap)
  have v : View t (f.view p) b.buf s.total s.q s.spare := ⟨b1, o, b2⟩
  refine ⟨s.q, new, v.readSlice, tk, hn, hl, fun below1 op => ?_⟩
  obtain ⟨k', b', x, out', n', q', sp', e, -⟩ := rd_step R v (by
    simp only [SeqWrite.writeCapacity] at below1
    rw [Nat.add_mul, Nat.one_mul] at below1
    rw [hl]; omega) op
  exact ⟨k', b', x, out', e⟩

/-- C136, what is delivered twice: everything that is buffered at the moment of the `fork`.  For every
program, every `BufWriter` in it (whose writer has not panicked) and every writer that takes what it is
offered: both processes drop their copy, and both deliver the buffered bytes. -/
theorem C136_twice (wf : Wf t k0) (posix : k0.mach = false) {w : World} (reach : Reach tab t k0 w) {W : Writer σ}
    (all : TakesAll W) (fuel : Nat) {j n : Nat} {b : BufWriter (σ × List WriteEvent)}
    (held : w.held j = some (.ring b.buf n)) {q : List Byte} (buffered : b.buffered t w.k = .ok q)
    (fine : b.panicked = false) (p : Who) :
    ∃ k1 s1 k2 s2,
      b.drop W.spy t (fuel + 2) ((Family.fork t w.k).view p) = .ok (k1, s1, .ok ()) ∧
      b.drop W.spy t (fuel + 2) (((Family.fork t w.k).put p k1).view p.other) = .ok (k2, s2, .ok ()) ∧
      received s1.2 = received b.inner.2 ++ q ∧ received s2.2 = received b.inner.2 ++ q := by
  obtain ⟨a, cl⟩ := (reach.inv wf).live j _ held
  obtain ⟨o, s0, h1, h2, h3, h4⟩ := a.inv
  have v0 : View t w.k b.buf n s0.q s0.spare := ⟨a, o, by subst h2; exact h1⟩
  rw [BufWriter.buffered, v0.readSlice] at buffered
  injection buffered with hq
  subst hq h2
  obtain ⟨g, ap⟩ := RingFork.fork h4 h1.mirror h3 cl p
  obtain ⟨g', ap'⟩ := RingFork.fork h4 h1.mirror h3 cl p.other
  obtain ⟨s1, e1, r1⟩ := drop_taker all (View.mk (a.other ap) ⟨o, h1.apart h4 ap⟩) (by cases p <;> exact reach.mach.trans posix) fine fuel
  have since := RingSince.theirs (t := t) (p := p.other) (a := .munmap b.buf.ptr (2 * b.buf.len))
    (.start (f0 := Family.fork t w.k) (r0 := b.buf) (s0 := s0)) trivial
  rw [other_other, ← put_munmap] at since
  obtain ⟨-, b1, b2, -⟩ := RingSince.inv since g' (a.other ap') (h1.apart h4 ap')
  obtain ⟨s2, e2, r2⟩ := drop_taker all (View.mk b1 ⟨o, b2⟩) (by
    have := (Plain.munmap (k := (Family.fork t w.k).view p) (addr := b.buf.ptr) (len := 2 * b.buf.len)).1
    cases p <;> exact this.trans (reach.mach.trans posix)) fine fuel
  exact ⟨_, s1, _, s2, e1, e2, r1, r2⟩

/-- C136, what is overwritten: after a `fork` process `p` writes `bs` to its `BufWriter`, which accepts
them with `Ok`, and the other process writes as many bytes `cs` to its own.  What `p` has buffered, and
will deliver, is now `cs`. -/
theorem C136_overwritten (wf : Wf t k0) (posix : k0.mach = false) {w : World} (reach : Reach tab t k0 w) (W : Writer σ)
    (fuel : Nat) {j n : Nat} {b : BufWriter (σ × List WriteEvent)}
    (held : w.held j = some (.ring b.buf n)) {q : List Byte} (buffered : b.buffered t w.k = .ok q)
    {bs cs : List Byte} (same : cs.length = bs.length)
    (fits : q.length + bs.length < SeqWrite.writeCapacity b.buf)
    (below : n + bs.length < posBound t (SeqWrite.writeCapacity b.buf)) (p : Who) :
    ∃ k1 b1 k2 b2,
      b.write W.spy t fuel ((Family.fork t w.k).view p) bs = .ok (k1, b1, .ok bs.length) ∧
      b1.buffered t k1 = .ok (q ++ bs) ∧
      b.write W.spy t fuel (((Family.fork t w.k).put p k1).view p.other) cs =
        .ok (k2, b2, .ok cs.length) ∧
      b1.buffered t ((((Family.fork t w.k).put p k1).put p.other k2).view p) = .ok (q ++ cs) := by
  obtain ⟨a, cl⟩ := (reach.inv wf).live j _ held
  obtain ⟨o, s0, h1, h2, h3, h4⟩ := a.inv
  have v0 : View t w.k b.buf n s0.q s0.spare := ⟨a, o, by subst h2; exact h1⟩
  rw [BufWriter.buffered, v0.readSlice] at buffered
  injection buffered with hq
  subst hq h2
  obtain ⟨k1, r1, k2, r2, e1, f1, e2, f2⟩ := C128_shared_false wf posix reach held h1.fillBuf_eq same
    (Nat.le_of_lt fits) below p
  have hl := v0.len
  have fits' : s0.q.length + bs.length < b.buf.len := fits
  have small : ∀ (k k' : Kernel) (r' : Ring) (d : List Byte), d.length = bs.length →
      b.buf.write t k d = .ok (k', r', d.length) →
      b.write W.spy t fuel k d = .ok (k', { b with buf := r' }, .ok d.length) := by
    intro k k' r' d hd e
    simp only [BufWriter.write, BufWriter.writeRest, v0.writeLen, bind, Except.bind]
    rw [if_neg (by omega), if_neg (by omega), e]
    rfl
  exact ⟨k1, _, k2, _, small _ _ _ _ rfl e1, f1, small _ _ _ _ same e2, f2⟩

end

/-! ### Non-vacuity, and the negation -/

/-- A writer that takes all it is offered, and counts the calls. -/
def eagerWriter : Writer Nat where
  write s data := (s + 1, .ok data.length)
  flush s := (s, .ok)

/-- A program has made a `BufWriter` with a ring of 8192 bytes and written three bytes to it. -/
theorem demo_buffered (tab : SysTable) : ∃ (w : World) (b : BufWriter (Nat × List WriteEvent)) (n : Nat),
    Reach tab ⟨.w64, true⟩ (demo 0) w ∧ w.held 0 = some (.ring b.buf n) ∧
    b.buffered ⟨.w64, true⟩ w.k = .ok [1, 2, 3] ∧ b.inner = (0, []) ∧ b.panicked = false ∧
    SeqWrite.writeCapacity b.buf = 8192 ∧ n ≤ 8192 := by
  obtain ⟨w, r, -, h, h0, -, hr, -⟩ := demo_copy tab
  have at_ := ((h.inv (demo_wf 0)).live 0 _ h0).1
  obtain ⟨q, sp, v⟩ := RingAt.view at_
  have hq : q = [] := by
    have h1 := v.readSlice
    rw [new_empty at_] at h1
    injection h1 with h1
    exact h1.symm
  subst hq
  have hr : r.len = 8192 := hr
  have hb : 0 + r.len < posBound ⟨.w64, true⟩ r.len := by
    rw [hr]; simp [posBound, Target.lim, Width.bits, lim64]
  obtain ⟨k', b', x, e, hl, -, hc⟩ :=
    writeRest_view (σ := Nat) (b := ⟨r, (0, []), false⟩) eagerWriter v hb [1, 2, 3]
  rcases hc with ⟨big, -⟩ | ⟨-, hx, hin, hpan, n', sp', hn, v'⟩
  · simp only [List.length_nil, List.length_cons] at big; omega
  · subst hx
    have hw : BufWriter.execAll eagerWriter.spy ⟨.w64, true⟩ 9 w.k
        (⟨r, (0, []), false⟩ : BufWriter (Nat × List WriteEvent)) [.write [1, 2, 3]] = .ok ((k', b'), [1, 2, 3]) := by
      have hlen := v.len
      simp only [List.length_nil] at hlen
      simp only [BufWriter.execAll, BufWriter.exec, BufWriter.write, v.writeLen, bind, Except.bind]
      rw [if_neg (by simp only [List.length_cons, List.length_nil]; omega), e]
      rfl
    obtain ⟨n1, reach, hn1, hcap, -⟩ := C93_writer (demo_wf 0) h eagerWriter.spy 9
      (b := ⟨r, (0, []), false⟩) h0 [.write [1, 2, 3]] (by
        simp only [List.length_cons, List.length_nil, SeqWrite.writeCapacity, hr]
        simp [posBound, Target.lim, Width.bits, lim64]) hw
    refine ⟨_, b', n1, reach, by simp [World.upd], v'.readSlice, hin, hpan, ?_, ?_⟩
    · rw [hcap]; exact hr
    · simp only [List.length_cons, List.length_nil, SeqWrite.writeCapacity, hr] at hn1
      omega

/-- C136 is false: three bytes are buffered at the moment of the `fork`, both processes drop their copy
of the `BufWriter`, and both deliver the three bytes. -/
theorem C136_false : ¬ C136_full := by
  intro full
  have tab : SysTable := ⟨fun _ => .interrupted, fun _ => ""⟩
  obtain ⟨w, b, n, h, h0, hq, hin, hpan, -, -⟩ := demo_buffered tab
  obtain ⟨k1, s1, k2, s2, e1, e2, r1, r2⟩ := C136_twice (demo_wf 0) rfl h
    (W := eagerWriter) (fun _ _ => rfl) 0 h0 hq hpan .parent
  have := full tab _ _ (demo_wf 0) rfl w h eagerWriter 2 0 n b h0 _ hq (by rw [hin]) .parent k1 s1 k2 s2 e1 e2
  rw [r1, r2, hin] at this
  exact absurd this.length_eq (by decide)

-- the child forgets its copy (and unmaps its ring by hand); the parent writes two more bytes and flushes
example (tab : SysTable) : Wf ⟨.w64, true⟩ (demo 0) ∧
    ∃ (w : World) (b : BufWriter (Nat × List WriteEvent)) (n : Nat) (f : Family)
    (b' : BufWriter (Nat × List WriteEvent)),
    Reach tab ⟨.w64, true⟩ (demo 0) w ∧ w.held 0 = some (.ring b.buf n) ∧
    b.buffered ⟨.w64, true⟩ w.k = .ok [1, 2, 3] ∧
    WriterSince eagerWriter ⟨.w64, true⟩ 9 .parent (Family.fork ⟨.w64, true⟩ w.k) b f b'
      [4, 5] 1 ∧
    n + 1 * SeqWrite.writeCapacity b.buf < posBound ⟨.w64, true⟩ (SeqWrite.writeCapacity b.buf) := by
  refine ⟨demo_wf 0, ?_⟩
  obtain ⟨w, b, n, h, h0, hq, hin, hpan, hcap, hn⟩ := demo_buffered tab
  obtain ⟨k1, b1, -, -, e1, -⟩ := C136_overwritten (demo_wf 0) rfl h eagerWriter 9 h0 hq
    (bs := [4, 5]) (cs := [4, 5]) rfl (by rw [hcap]; decide)
    (by rw [hcap]; simp [posBound, Target.lim, Width.bits, lim64]; omega) .parent
  have run : b.exec eagerWriter.spy ⟨.w64, true⟩ 9 ((Family.fork ⟨.w64, true⟩ w.k).view .parent)
      (.write [4, 5]) = .ok ((k1, b1), .ok 2) := by
    simp only [BufWriter.exec, e1, bind, Except.bind]
    rfl
  have since := WriterSince.call .start run
  refine ⟨w, b, n, _, b1, h, h0, hq, since.theirs (a := .munmap b1.buf.ptr 16384) trivial, ?_⟩
  · rw [hcap]; simp [posBound, Target.lim, Width.bits, lim64]; omega

-- a `BufReader` over the same ring, which the child goes on reading
example (tab : SysTable) : Wf ⟨.w64, true⟩ (demo 0) ∧
    ∃ (w : World) (b : BufReader (Nat × List ReadEvent)) (n : Nat) (f : Family)
    (b' : BufReader (Nat × List ReadEvent)) (out : List Byte),
    Reach tab ⟨.w64, true⟩ (demo 0) w ∧ w.held 0 = some (.ring b.buf n) ∧
    b.buffer ⟨.w64, true⟩ w.k = .ok [1, 2, 3] ∧
    ReaderSince countReader ⟨.w64, true⟩ .child (Family.fork ⟨.w64, true⟩ w.k) b f b' out 1 ∧
    n + 1 * SeqWrite.writeCapacity b.buf < posBound ⟨.w64, true⟩ (SeqWrite.writeCapacity b.buf) := by
  refine ⟨demo_wf 0, ?_⟩
  obtain ⟨w, b, n, h, h0, hq, hin, hpan, hcap, hn⟩ := demo_buffered tab
  have hb : n + 1 * SeqWrite.writeCapacity b.buf <
      posBound ⟨.w64, true⟩ (SeqWrite.writeCapacity b.buf) := by
    rw [hcap]; simp [posBound, Target.lim, Width.bits, lim64]; omega
  obtain ⟨-, -, -, -, -, -, runs⟩ := C136_reader_partial (demo_wf 0) rfl h countReader
    (b0 := ⟨b.buf, (0, []), 0⟩) h0 hq (.start (p := .child)) (by
      show n + 0 * _ < posBound _ (SeqWrite.writeCapacity b.buf)
      rw [Nat.zero_mul]; omega)
  obtain ⟨k', b', x, o, e⟩ := runs hb (.read [0, 0])
  exact ⟨w, ⟨b.buf, (0, []), 0⟩, n, _, b', _, h, h0, hq, .call .start e, hb⟩

end Vmap
