import Verif.Proofs.ForkRing
import Verif.Props.InfiniteRing
import Verif.Props.Copy
/-
Property theorems C128: rings after `fork`.
-/
namespace Vmap
open Kernel Spec

section
variable {tab : SysTable} {t : Target} {k0 : Kernel}

/-- C128, the part that holds: a program that holds a ring forks; from then on one of the two processes
uses the ring, and the other does whatever it likes (drop its ring, unmap, map, truncate, lock, …)
except store to the ring's addresses.  The ring is, to the process that uses it, the queue it was: it
holds what it held at the moment of the `fork`, and every call answers as the queue does.  The full
claim, that each process has a queue of its own whatever the other does, is false: see
`C128_shared_false`. -/
theorem C128_alone_partial (wf : Wf t k0) (_posix : k0.mach = false) {w : World} (reach : Reach tab t k0 w) {j n : Nat} {r0 : Ring}
    (held : w.held j = some (.ring r0 n)) {q sp : List Byte} (readable : r0.fillBuf t w.k = .ok q)
    (space : writeSliceBytes t w.k r0 t.usizeMax = .ok sp) {p : Who} {f : Family} {r : Ring} {s : Spec.Win}
    (since : RingSince t p (Family.fork t w.k) r0 ⟨sp, q, n⟩ f r s) :
    r.fillBuf t (f.view p) = .ok s.q ∧ writeSliceBytes t (f.view p) r t.usizeMax = .ok s.spare ∧
    RingAt t (f.view p) r s.total ∧ SeqWrite.writeCapacity r = SeqWrite.writeCapacity r0 ∧
    ∀ op, (s.step op).1.total < posBound t (SeqWrite.writeCapacity r) →
      ∃ k' r', r.exec t (f.view p) op = .ok ((k', r'), (s.step op).2) := by
  obtain ⟨a, cl⟩ := (reach.inv wf).live j _ held
  obtain ⟨o, s0, h1, h2, h3, h4⟩ := a.inv
  rw [h1.fillBuf_eq] at readable
  rw [h1.writeSlice_all] at space
  injection readable with hq
  injection space with hs
  subst hq hs h2
  obtain ⟨g, ap⟩ := RingFork.fork h4 h1.mirror h3 cl p
  obtain ⟨-, b1, b2, b3⟩ := RingSince.inv since g (a.other ap) (h1.apart h4 ap)
  refine ⟨b2.fillBuf_eq, b2.writeSlice_all, b1, b3, fun op hb => ?_⟩
  obtain ⟨k', r', e, -⟩ := ring_step b2 op hb
  exact ⟨k', r', e⟩

/-- C128, the part that holds, for an infinite ring. -/
theorem C128_infinite_partial (wf : Wf t k0) (_posix : k0.mach = false) {w : World} (reach : Reach tab t k0 w) {j n : Nat}
    {r0 : InfiniteRing} (held : w.held j = some (.inf r0 n)) {q old : List Byte}
    (readable : r0.fillBuf t w.k = .ok q)
    (space : writeSliceBytes t w.k r0 t.usizeMax = .ok (old ++ q)) {p : Who} {f : Family}
    {r : InfiniteRing} {s : Spec.Lossy}
    (since : InfSince t p (Family.fork t w.k) r0 ⟨old, q, n⟩ f r s) :
    r.fillBuf t (f.view p) = .ok s.q ∧
    writeSliceBytes t (f.view p) r t.usizeMax = .ok (s.old ++ s.q) ∧ InfAt t (f.view p) r s.total ∧
    SeqWrite.writeCapacity r = SeqWrite.writeCapacity r0 ∧
    ∀ op, (s.step op).1.total < posBound t (SeqWrite.writeCapacity r) →
      FeedOk (SeqWrite.writeCapacity r) op →
      ∃ k' r', r.exec t (f.view p) op = .ok ((k', r'), (s.step op).2) := by
  obtain ⟨a, cl⟩ := (reach.inv wf).live j _ held
  obtain ⟨o, s0, h1, h2, h3, h4⟩ := a.inv
  rw [h1.fillBuf_eq] at readable
  rw [h1.writeSlice_all] at space
  injection readable with hq
  injection space with hs
  subst hq h2
  have hs : s0.old = old := List.append_cancel_right hs
  subst hs
  obtain ⟨g, ap⟩ := RingFork.fork h4 h1.mirror h3 cl p
  obtain ⟨-, b1, b2, b3⟩ := InfSince.inv since g (a.other ap) (h1.apart h4 ap)
  refine ⟨b2.fillBuf_eq, b2.writeSlice_all, b1, b3, fun op hb hf => ?_⟩
  obtain ⟨k', r', e, -⟩ := inf_step b2 op hb hf
  exact ⟨k', r', e⟩

/-- C128 is false as a claim about both processes: the two write to the same memory, each at its own
position, and these are equal after the `fork`.  Whenever process `p` appends `bs` after the `fork`, and the other
process then appends as many bytes `cs` to its copy of the ring, `p` reads `cs` in the place of `bs`. -/
theorem C128_shared_false (wf : Wf t k0) (_posix : k0.mach = false) {w : World} (reach : Reach tab t k0 w) {j n : Nat} {r : Ring}
    (held : w.held j = some (.ring r n)) {q : List Byte} (readable : r.fillBuf t w.k = .ok q)
    {bs cs : List Byte} (same : cs.length = bs.length)
    (fits : q.length + bs.length ≤ SeqWrite.writeCapacity r)
    (below : n + bs.length < posBound t (SeqWrite.writeCapacity r)) (p : Who) :
    ∃ k1 r1 k2 r2,
      r.write t ((Family.fork t w.k).view p) bs = .ok (k1, r1, bs.length) ∧
      r1.fillBuf t k1 = .ok (q ++ bs) ∧
      r.write t (((Family.fork t w.k).put p k1).view p.other) cs = .ok (k2, r2, cs.length) ∧
      r1.fillBuf t ((((Family.fork t w.k).put p k1).put p.other k2).view p) = .ok (q ++ cs) := by
  obtain ⟨a, cl⟩ := (reach.inv wf).live j _ held
  obtain ⟨o, s0, h1, h2, h3, h4⟩ := a.inv
  rw [h1.fillBuf_eq] at readable
  injection readable with hq
  subst hq h2
  have hl := h1.len_eq
  have fits : s0.q.length + bs.length ≤ r.len := fits
  have hmin : min bs.length s0.spare.length = bs.length := by omega
  obtain ⟨g, ap⟩ := RingFork.fork h4 h1.mirror h3 cl p
  obtain ⟨-, ap'⟩ := RingFork.fork h4 h1.mirror h3 cl p.other
  have mo := (h1.apart h4 ap').mirror
  have hr := h1.apart h4 ap
  generalize Family.fork t w.k = f at *
  obtain ⟨k1, r1, e1, -, c1, p1, p2, sd1, -⟩ := hr.write_eq bs (by rw [hmin]; exact below)
  rw [hmin] at e1
  -- the other process's ring, over the changed memory
  have g1 := g.put sd1
  have v1 := (view_put f p k1).2
  have hw : win k1 o r.len r.wpos = bs ++ s0.spare.drop bs.length ++ s0.q := by
    have ha := c1.all
    have ht := c1.total
    rw [p2, ht] at ha
    simp only [Win.step, hmin, List.take_length] at ha
    have hs := win_shift k1 o r.len r.wpos bs.length (by omega)
    rw [show r.wpos + bs.length = s0.total + bs.length by rw [h1.total], ← ha] at hs
    rw [← List.append_assoc] at hs
    have h3 := List.append_inj hs (by simp; omega)
    rw [← List.take_append_drop bs.length (win k1 o r.len r.wpos), ← h3.1, ← h3.2,
      List.append_assoc]
  have ho : RingRep t ((f.put p k1).view p.other) r o
      ⟨bs ++ s0.spare.drop bs.length, s0.q, s0.total⟩ := by
    rw [v1]
    refine ⟨?_, ?_, h1.total, h1.qlen, h1.pos⟩
    · have hpg : (f.view p.other).page = k1.page := by rw [g.ap.same]; exact sd1.page.symm
      have hsz : (f.view p.other).size = k1.size := by rw [g.ap.same]; exact sd1.size.symm
      refine ⟨mo.len_pos, ?_, ?_, mo.fits, fun i hi => ?_⟩
      · show k1.page ∣ _
        rw [← hpg]; exact mo.ptr_dvd
      · show k1.page ∣ _
        rw [← hpg]; exact mo.len_dvd
      · obtain ⟨e, x1, x2, x3, x4, x5, x6, x7, x8⟩ := mo.shows' i hi
        refine ⟨e, ?_, x2, x3, x4, x5, x6, ?_, ?_⟩
        · show (f.view p.other).pt (_ / k1.page) = _
          rw [← hpg]; exact x1
        · show e.idx * k1.page + _ % k1.page = _
          rw [← hpg]; exact x7
        · rw [← x8]
          unfold backed
          rw [hpg, hsz]; rfl
    · show _ = win k1 o r.len r.wpos
      rw [hw]
  obtain ⟨k2, r2, e2, -, c2, q1, q2, sd2, -⟩ := ho.write_eq cs (by
    rw [same]
    simp only [List.length_append, List.length_drop]
    rw [Nat.min_eq_left (by omega)]; exact below)
  have hmin2 : min cs.length (bs ++ s0.spare.drop bs.length).length = cs.length := by
    rw [same]; simp
  rw [hmin2] at e2
  refine ⟨k1, r1, k2, r2, e1, ?_, e2, ?_⟩
  · rw [c1.fillBuf_eq]
    simp only [Win.step, hmin, List.take_length]
  · have hrr : r1 = r2 := by
      have a1 := c1.total
      have a2 := c2.total
      have a3 := c1.qlen
      have a4 := c2.qlen
      simp only [Win.step, hmin] at a1 a3
      simp only [Win.step, hmin2] at a2 a4
      simp only [List.take_length, List.length_append] at a3 a4
      cases r1; cases r2
      simp only at p1 p2 q1 q2 a1 a2 a3 a4
      simp only [Ring.mk.injEq]
      omega
    subst hrr
    obtain ⟨v2, v3⟩ := view_put (f.put p k1) p.other k2
    rw [other_other] at v3
    have m1 : (((f.put p k1).put p.other k2).view p).Mirror t r1.ptr r1.len o := by
      rw [v3, (view_put f p k1).1, p1, p2]
      have hpg : k2.page = k1.page := by
        rw [sd2.page, v1]; rfl
      have hsz : k2.size = k1.size := by
        rw [sd2.size, v1]; rfl
      have m0 := hr.mirror.mono sd1
      refine ⟨m0.len_pos, ?_, ?_, m0.fits, fun i hi => ?_⟩
      · show k2.page ∣ _
        rw [hpg]; exact m0.ptr_dvd
      · show k2.page ∣ _
        rw [hpg]; exact m0.len_dvd
      · obtain ⟨e, x1, x2, x3, x4, x5, x6, x7, x8⟩ := m0.shows' i hi
        refine ⟨e, ?_, x2, x3, x4, x5, x6, ?_, ?_⟩
        · show k1.pt (_ / k2.page) = _
          rw [hpg]; exact x1
        · show e.idx * k2.page + _ % k2.page = _
          rw [hpg]; exact x7
        · rw [← x8]
          simp only [backed, besides, hpg, hsz]
    have rep : RingRep t (((f.put p k1).put p.other k2).view p) r1 o
        (Spec.Win.step ⟨bs ++ s0.spare.drop bs.length, s0.q, s0.total⟩ (.write cs)).1 := by
      refine ⟨m1, ?_, c2.total, c2.qlen, c2.pos⟩
      rw [c2.all, v3]
      rfl
    rw [rep.fillBuf_eq]
    simp only [Win.step, hmin2, List.take_length]

end

/-! ### Non-vacuity -/

-- a program makes a ring of capacity 8192 and forks; the child drops its copy of the ring (and so
-- unmaps its pages); the parent then writes three bytes, and reads two of them
example (tab : SysTable) : Wf ⟨.w64, true⟩ (demo 0) ∧
    ∃ (w : World) (r : Ring) (f : Family) (k1 k2 : Kernel) (r1 r2 : Ring),
    Reach tab ⟨.w64, true⟩ (demo 0) w ∧ w.held 0 = some (.ring r 0) ∧
    f = (Family.fork ⟨.w64, true⟩ w.k).act ⟨.w64, true⟩ .child (.munmap r.ptr 16384) ∧
    r.exec ⟨.w64, true⟩ (f.view .parent) (.write [1, 2, 3]) = .ok ((k1, r1), .num 3) ∧
    r1.exec ⟨.w64, true⟩ ((f.put .parent k1).view .parent) (.read 2) =
      .ok ((k2, r2), .bytes [1, 2]) := by
  refine ⟨demo_wf 0, ?_⟩
  obtain ⟨w, r, -, h, h0, -, hr, -⟩ := demo_copy tab
  obtain ⟨q, sp, v⟩ := RingAt.view ((h.inv (demo_wf 0)).live 0 _ h0).1
  obtain ⟨o, rep⟩ := v.rep
  have hq : q = [] := by
    have h1 := rep.qlen
    have h2 := rep.total
    simp only at h1 h2
    exact List.eq_nil_of_length_eq_zero (by omega)
  subst hq
  have hl := rep.len_eq
  have hr : r.len = 8192 := hr
  simp only [List.length_nil, Nat.add_zero, hr] at hl
  have s1 := RingSince.theirs (t := ⟨.w64, true⟩) (p := .parent) (a := .munmap r.ptr 16384)
    (.start (f0 := Family.fork ⟨.w64, true⟩ w.k) (r0 := r) (s0 := ⟨sp, [], 0⟩)) trivial
  obtain ⟨-, -, -, -, c1⟩ := C128_alone_partial (demo_wf 0) rfl h h0 rep.fillBuf_eq rep.writeSlice_all s1
  have hb : (Spec.Win.step ⟨sp, [], 0⟩ (.write [1, 2, 3])).1.total <
      posBound ⟨.w64, true⟩ (SeqWrite.writeCapacity r) := by
    show 0 + min 3 sp.length < posBound _ r.len
    rw [hr, hl]
    simp [posBound, Target.lim, Width.bits, lim64]
  obtain ⟨k1, r1, e1⟩ := c1 (.write [1, 2, 3]) hb
  have s2 := s1.call hb e1
  obtain ⟨-, -, -, hc, c2⟩ := C128_alone_partial (demo_wf 0) rfl h h0 rep.fillBuf_eq rep.writeSlice_all s2
  obtain ⟨k2, r2, e2⟩ := c2 (.read 2) (by rw [hc]; exact hb)
  refine ⟨w, r, _, k1, k2, r1, r2, h, h0, rfl, ?_, ?_⟩
  · rw [show (3 : Nat) = min 3 sp.length by rw [hl]; rfl]; exact e1
  · refine e2.trans ?_
    simp only [Win.step, List.length_cons, List.length_nil, hl]
    rfl

-- an infinite ring, made before the `fork` and used by the child alone
example (tab : SysTable) : Wf ⟨.w64, true⟩ (demo 0) ∧
    ∃ (w : World) (r : InfiniteRing) (q old : List Byte) (s : Spec.Lossy) (f : Family),
    Reach tab ⟨.w64, true⟩ (demo 0) w ∧ w.held 0 = some (.inf r 0) ∧
    r.fillBuf ⟨.w64, true⟩ w.k = .ok q ∧
    writeSliceBytes ⟨.w64, true⟩ w.k r (Target.usizeMax ⟨.w64, true⟩) = .ok (old ++ q) ∧
    InfSince ⟨.w64, true⟩ .child (Family.fork ⟨.w64, true⟩ w.k) r ⟨old, q, 0⟩ f r s ∧
    f = (Family.fork ⟨.w64, true⟩ w.k).act ⟨.w64, true⟩ .parent (.store 7 7) := by
  refine ⟨demo_wf 0, ?_⟩
  have h : Reach tab ⟨.w64, true⟩ (demo 0) _ :=
    .step (op := .newInf 8192) .start ⟨by show (8192 + 4096 : Nat) < _; decide, fun h => by cases h⟩ rfl
  obtain ⟨a, -⟩ := (h.inv (demo_wf 0)).live 0 _ rfl
  obtain ⟨o, s, h1, h2, h3, h4⟩ := a.inv
  refine ⟨_, _, s.q, s.old, _, _, h, rfl, h1.fillBuf_eq, h1.writeSlice_all, .theirs .start ?_, rfl⟩
  intro hh
  have : (4096 : Nat) ≤ 7 := Nat.le_trans (by decide) hh.1
  omega

-- both processes append two bytes after the `fork`: the first of them reads what the other wrote
example (tab : SysTable) (p : Who) : Wf ⟨.w64, true⟩ (demo 0) ∧
    ∃ (w : World) (r : Ring) (k1 k2 : Kernel) (r1 r2 : Ring),
    Reach tab ⟨.w64, true⟩ (demo 0) w ∧ w.held 0 = some (.ring r 0) ∧
    r.write ⟨.w64, true⟩ ((Family.fork ⟨.w64, true⟩ w.k).view p) [1, 2] = .ok (k1, r1, 2) ∧
    r.write ⟨.w64, true⟩ (((Family.fork ⟨.w64, true⟩ w.k).put p k1).view p.other) [8, 9] =
      .ok (k2, r2, 2) ∧
    r1.fillBuf ⟨.w64, true⟩ ((((Family.fork ⟨.w64, true⟩ w.k).put p k1).put p.other k2).view p) =
      .ok [8, 9] := by
  refine ⟨demo_wf 0, ?_⟩
  obtain ⟨w, r, -, h, h0, -, hr, -⟩ := demo_copy tab
  have hq := new_empty ((h.inv (demo_wf 0)).live 0 _ h0).1
  obtain ⟨k1, r1, k2, r2, e1, -, e3, e4⟩ := C128_shared_false (demo_wf 0) rfl h h0 (q := []) hq
    (bs := [1, 2]) (cs := [8, 9]) rfl (by rw [hr]; decide)
    (by rw [hr]; simp [posBound, Target.lim, Width.bits, lim64]) p
  exact ⟨w, r, k1, k2, r1, r2, h, h0, e1, e3, e4⟩

end Vmap
