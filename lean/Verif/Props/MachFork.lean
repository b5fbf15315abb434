import Verif.Proofs.MachFork
/-
Property theorem C135: rings in a child process on macOS.
-/
namespace Vmap
open Spec Kernel

/-- C135 in full: on macOS a child process has the rings of its parent, with the contents they have at the
time of the fork: every history of calls on such a ring answers in the child as it would have
answered in the parent. -/
def C135_full : Prop :=
  ∀ (t : Target) (s s' : Mach), MachWf s → MachLaid t s → ∀ (hint : Nat), hint < t.lim →
    ∀ r : Ring, s.ringNew t hint = .ok (s', .ok r) →
    ∀ s2 : Mach, SamePages s' s2 (r.ptr / s.page) (2 * (SeqWrite.writeCapacity r / s.page)) →
    ∀ (k kc : Kernel) (obj : Nat → Obj), MachChild t s2 k kc obj →
    ∀ (r2 : Ring) (n : Nat), r2.ptr = r.ptr → SeqWrite.writeCapacity r2 = SeqWrite.writeCapacity r →
    RingAt t k r2 n → ∀ q sp, r2.fillBuf t k = .ok q → writeSliceBytes t k r2 t.usizeMax = .ok sp →
    ∀ ops, Win.below (posBound t (SeqWrite.writeCapacity r2)) ⟨sp, q, n⟩ ops →
    ∀ k' r' rs, r2.execAll t k ops = .ok ((k', r'), rs) →
      ∃ kc', r2.execAll t kc ops = .ok ((kc', r'), rs)

/-- C135 as far as it is true.  The ring was made by `Ring::new` and used in any way, its pages are as
they were made, then the process forks.  As long as no call reads or writes bytes on both sides
of the end of the ring, every history of calls answers in the child as it would have answered in
the parent.  The first call that does is a memory fault in the child (the second half of the
ring is not inherited); wrong bytes are never seen.  (Missing: the calls over the end, for which
the full statement is false.) -/
theorem C135_partial (t : Target) {s s' : Mach} (w : MachWf s) (l : MachLaid t s) (hint : Nat)
    (hh : hint < t.lim) (r : Ring) (made : s.ringNew t hint = .ok (s', .ok r)) (s2 : Mach)
    (keep : SamePages s' s2 (r.ptr / s.page) (2 * (SeqWrite.writeCapacity r / s.page)))
    (k kc : Kernel) (obj : Nat → Obj) (child : MachChild t s2 k kc obj) (r2 : Ring) (n : Nat)
    (ptr : r2.ptr = r.ptr) (cap : SeqWrite.writeCapacity r2 = SeqWrite.writeCapacity r)
    (at_ : RingAt t k r2 n) (q sp : List Byte) (hq : r2.fillBuf t k = .ok q)
    (hs : writeSliceBytes t k r2 t.usizeMax = .ok sp) (ops : List RingOp)
    (below : Win.below (posBound t (SeqWrite.writeCapacity r2)) ⟨sp, q, n⟩ ops) :
    (allInside (SeqWrite.writeCapacity r2) ⟨sp, q, n⟩ ops = true →
      ∃ k' r' rs kc', r2.execAll t k ops = .ok ((k', r'), rs) ∧
        r2.execAll t kc ops = .ok ((kc', r'), rs)) ∧
    (allInside (SeqWrite.writeCapacity r2) ⟨sp, q, n⟩ ops = false →
      (∃ k' r' rs, r2.execAll t k ops = .ok ((k', r'), rs)) ∧
      r2.execAll t kc ops = .error .memory) := by
  obtain ⟨hcap, ring, -, -, -⟩ := C92_macos_ring t w l hint hh r made
  have hp : s'.page = s.page := by
    simp only [Mach.ringNew, bind, Except.bind] at made
    split at made
    · cases made
    split at made
    · cases made
    rename_i x hm
    obtain ⟨s1, r1⟩ := x
    cases r1 with
    | error e => cases made
    | ok ptr => cases made; exact (Mach.goes_mapRing t s s' _ _ hm).1
  simp only [SeqWrite.writeCapacity] at hcap ring keep cap below ⊢
  have half : Half k kc r2.ptr r2.len := by
    have := Half.of_child w.page ring hp keep child
    rwa [Nat.div_mul_cancel hcap.1, ← ptr, ← cap] at this
  obtain ⟨q', sp', v⟩ := at_.view
  rw [v.fillBuf] at hq
  rw [v.writeSlice] at hs
  injection hq with hq
  injection hs with hs
  subst hq hs
  obtain ⟨o, rep⟩ := v.rep
  obtain ⟨h1, h2⟩ := half.run ops rep below
  obtain ⟨k', r', e, -⟩ := ring_run ops rep below
  refine ⟨fun hi => ?_, fun hi => ⟨⟨k', r', _, e⟩, h1 hi⟩⟩
  obtain ⟨k1, r1, kc1, e1, e2, -⟩ := h2 hi
  exact ⟨k1, r1, _, kc1, e1, e2⟩

/-- The contents of a ring as such: `fill_buf` (`Deref`, `AsRef`) in the child shows the contents if they lie
inside the first half, and faults otherwise. -/
theorem C135_contents (t : Target) {s s' : Mach} (w : MachWf s) (l : MachLaid t s) (hint : Nat)
    (hh : hint < t.lim) (r : Ring) (made : s.ringNew t hint = .ok (s', .ok r)) (s2 : Mach)
    (keep : SamePages s' s2 (r.ptr / s.page) (2 * (SeqWrite.writeCapacity r / s.page)))
    (k kc : Kernel) (obj : Nat → Obj) (child : MachChild t s2 k kc obj) (r2 : Ring) (n : Nat)
    (ptr : r2.ptr = r.ptr) (cap : SeqWrite.writeCapacity r2 = SeqWrite.writeCapacity r)
    (at_ : RingAt t k r2 n) (q : List Byte) (hq : r2.fillBuf t k = .ok q) :
    r2.fillBuf t kc =
      if (n - q.length) % SeqWrite.writeCapacity r2 + q.length ≤ SeqWrite.writeCapacity r2 then .ok q
      else .error .memory := by
  obtain ⟨q', sp, v⟩ := at_.view
  have hq' := hq
  rw [v.fillBuf] at hq'
  injection hq' with hq'
  subst hq'
  have hlt := v.len_lt
  have hlen := v.len
  have hmin : min t.usizeMax q'.length = q'.length := by
    simp only [Target.usizeMax]; omega
  obtain ⟨h1, h2⟩ := C135_partial t w l hint hh r made s2 keep k kc obj child r2 n ptr cap at_ q' sp hq
    v.writeSlice [.readSlice t.usizeMax] ⟨v.below, trivial⟩
  simp only [allInside, inside, hmin, Bool.and_true, decide_eq_true_eq, decide_eq_false_iff_not] at h1 h2
  have ex : ∀ k0 : Kernel, r2.execAll t k0 [.readSlice t.usizeMax] =
      (r2.fillBuf t k0).bind fun b => .ok ((k0, r2), [.bytes b]) := by
    intro k0
    simp only [Ring.execAll, Ring.exec, Ring.fillBuf, bind, Except.bind, pure, Except.pure]
    cases readSliceBytes t k0 r2 t.usizeMax <;> rfl
  rw [ex, ex, hq] at h1 h2
  split
  · rename_i hi
    obtain ⟨k', r', rs, kc', e1, e2⟩ := h1 hi
    cases hx : r2.fillBuf t kc with
    | error f => rw [hx] at e2; cases e2
    | ok b =>
      rw [hx] at e2
      simp only [Except.bind, Except.ok.injEq, Prod.mk.injEq] at e1 e2
      obtain ⟨-, rfl⟩ := e1
      obtain ⟨-, e2⟩ := e2
      injection e2 with e2 _
      injection e2 with e2
      rw [e2]
  · rename_i hi
    have e2 := (h2 hi).2
    cases hx : r2.fillBuf t kc with
    | error f => rw [hx] at e2; simp only [Except.bind, Except.error.injEq] at e2; rw [e2]
    | ok b => rw [hx] at e2; cases e2

/-- The example task with a ring of two pages, its memory and a child. -/
theorem machDemo_child : ∃ s' r k kc, ∃ obj : Nat → Obj,
    machDemo.ringNew ⟨.w64, true⟩ 5000 = .ok (s', .ok r) ∧ SeqWrite.writeCapacity r = 8192 ∧
    MachChild ⟨.w64, true⟩ s' k kc obj ∧ RingAt ⟨.w64, true⟩ k r 0 := by
  have h : ∃ s' r, machDemo.ringNew ⟨.w64, true⟩ 5000 = .ok (s', .ok r) ∧
      SeqWrite.writeCapacity r = 8192 := ⟨_, ⟨4096000, 8192, 0, 0⟩, by rfl, rfl⟩
  obtain ⟨s', r, hm, hc⟩ := h
  obtain ⟨-, -, hw, hl, hr⟩ := C92_macos_ring _ machDemo_wf machDemo_laid 5000 (by decide) r hm
  obtain ⟨wf, mem⟩ := MachLaid.memory hl hw
  obtain ⟨kc, obj, c⟩ := machChild_exists hw hl (mem 0)
  exact ⟨s', r, _, kc, obj, hm, hc, c, hr _ _ wf (mem _)⟩

/-- C135 is false: after 8000 bytes have passed through a ring of 8192, 300 bytes are put in and cannot be
read in the child. -/
theorem C135_false : ¬ C135_full := by
  intro full
  obtain ⟨s', r, k, kc, obj, hm, hc, c, h⟩ := machDemo_child
  obtain ⟨q, sp, v⟩ := h.view
  have hlen := v.len
  have hq := h.empty
  rw [v.fillBuf] at hq
  injection hq with hq
  subst hq
  have hl : r.len = 8192 := hc
  rw [hl] at hlen
  simp only [List.length_nil, Nat.zero_add] at hlen
  have below : Win.below (posBound ⟨.w64, true⟩ (SeqWrite.writeCapacity r)) ⟨sp, [], 0⟩
      [.feed 8000, .consume 8000, .feed 300, .readSlice 300] := by
    rw [hc]
    simp [Win.below, Win.step, posBound, Target.lim, Width.bits, lim64, hlen]
  obtain ⟨-, h2⟩ := C135_partial _ machDemo_wf machDemo_laid 5000 (by decide) r hm s'
    ⟨rfl, fun _ _ => ⟨rfl, rfl⟩⟩ k kc obj c r 0 rfl rfl h [] sp v.fillBuf v.writeSlice _ below
  obtain ⟨⟨k', r', rs, e1⟩, e2⟩ := h2 (by
    rw [hc]
    simp [allInside, inside, Win.step, hlen])
  obtain ⟨kc', e3⟩ := full _ _ _ machDemo_wf machDemo_laid 5000 (by decide) r hm s'
    ⟨rfl, fun _ _ => ⟨rfl, rfl⟩⟩ k kc obj c r 0 rfl rfl h [] sp v.fillBuf v.writeSlice _ below _ _ _ e1
  rw [e2] at e3
  cases e3

/-- Non-vacuity of `C135_partial` and `C135_contents`: a child of the example task; three bytes are
written and read in the child. -/
example : MachWf machDemo ∧ MachLaid ⟨.w64, true⟩ machDemo ∧
    ∃ s' r k kc, ∃ obj : Nat → Obj, ∃ sp,
    machDemo.ringNew ⟨.w64, true⟩ 5000 = .ok (s', .ok r) ∧
    SamePages s' s' (r.ptr / machDemo.page) (2 * (SeqWrite.writeCapacity r / machDemo.page)) ∧
    MachChild ⟨.w64, true⟩ s' k kc obj ∧ RingAt ⟨.w64, true⟩ k r 0 ∧
    r.fillBuf ⟨.w64, true⟩ k = .ok [] ∧
    writeSliceBytes ⟨.w64, true⟩ k r (⟨.w64, true⟩ : Target).usizeMax = .ok sp ∧
    Win.below (posBound ⟨.w64, true⟩ (SeqWrite.writeCapacity r)) ⟨sp, [], 0⟩ [.write [1, 2, 3], .read 3] ∧
    allInside (SeqWrite.writeCapacity r) ⟨sp, [], 0⟩ [.write [1, 2, 3], .read 3] = true := by
  refine ⟨machDemo_wf, machDemo_laid, ?_⟩
  obtain ⟨s', r, k, kc, obj, hm, hc, c, h⟩ := machDemo_child
  obtain ⟨q, sp, v⟩ := h.view
  have hlen := v.len
  have hq := h.empty
  rw [v.fillBuf] at hq
  injection hq with hq
  subst hq
  have hl : r.len = 8192 := hc
  rw [hl] at hlen
  simp only [List.length_nil, Nat.zero_add] at hlen
  refine ⟨s', r, k, kc, obj, sp, hm, ⟨rfl, fun _ _ => ⟨rfl, rfl⟩⟩, c, h, v.fillBuf, v.writeSlice, ?_, ?_⟩
  · rw [hc]; simp [Win.below, Win.step, posBound, Target.lim, Width.bits, lim64, hlen]
  · rw [hc]; simp [allInside, inside, Win.step, hlen]

end Vmap
