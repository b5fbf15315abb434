import Verif.Proofs.RingShm
import Verif.Props.Platform
/-
Property theorem C94: rings on unix targets without memfd.
-/
namespace Vmap
open Kernel Spec

/-- What both constructors have in common: after some failed tries they go on as over
`memfd_create`. -/
theorem newShm_cases {t : Target} {w : ShmKernel} (wf : Wf t w.k) (rounds hint : Nat)
    (hh : hint + w.k.page < t.lim) (hc : ∀ i, i < rounds → 0 ≤ w.clock (w.k.tick + i)) :
    ∃ len w' x, (Size.withSize w.k.page).round t hint = .ok len ∧
      Posix.mapRingShm t rounds w len = .ok (w', x) ∧ w'.taken = w.taken ∧
      ((x = none ∧ Tries rounds w.k w'.k) ∨
       (∃ n k r, n < rounds ∧ Tries n w.k k ∧ x = some r ∧
        (Size.withSize k.page).round t hint = .ok len ∧
        Posix.mapRing t k len = .ok (w'.k, r))) := by
  obtain ⟨s, hs, hs2⟩ := wf.page
  have hl : (Size.withSize w.k.page).round t hint =
      .ok ((hint + 2 ^ s - 1) / 2 ^ s * 2 ^ s) := by
    rw [hs]; exact round_eq (by omega) (by rw [← hs]; exact hh)
  obtain ⟨w', x, e, g, h⟩ := mapRingShm_cases wf (rounds := rounds)
    (len := (hint + 2 ^ s - 1) / 2 ^ s * 2 ^ s) (by rw [hs]; exact Nat.dvd_mul_left _ _) hc
  refine ⟨_, w', x, hl, e, g, ?_⟩
  rcases h with h | ⟨n, k, r, a, b, c, d⟩
  · exact .inl h
  · exact .inr ⟨n, k, r, a, b, c, by rw [b.same.page]; exact hl, d⟩

/-- C94: `Ring::new` on targets without memfd, at any clock from 1970 on, with any shared-memory names
taken and any failures: it does not panic and leaves the names as they were.  If it is still
looking for a name, nothing else has happened.  If it fails, everything is as before and the
error names the failing call, as in C28.  If it succeeds, the ring is as C15 and C25 say, and
a new ring in the sense of all theorems about reachable rings. -/
theorem C94_ring (t : Target) (w : ShmKernel) (wf : Wf t w.k) (rounds hint : Nat)
    (hh : hint + w.k.page < t.lim) (hc : ∀ i, i < rounds → 0 ≤ w.clock (w.k.tick + i)) :
    ∃ w' x, Ring.newShm t rounds w hint = .ok (w', x) ∧ w'.taken = w.taken ∧
      (x = none → Tries rounds w.k w'.k) ∧
      (∀ err, x = some (.error err) → SameWorld w.k w'.k ∧ Wf t w'.k ∧
        ∃ n k len l, n < rounds ∧ Tries n w.k k ∧
          IsRoundUp w.k.page hint len ∧ w'.k.log = l ++ k.log ∧ RingTrace len l err) ∧
      (∀ r, x = some (.ok r) → Made t w.k w'.k hint r.ptr (SeqWrite.writeCapacity r) ∧
        RingAt t w'.k r 0) := by
  obtain ⟨len, w', x, hl, e, g, h⟩ := newShm_cases wf rounds hint hh hc
  rcases h with ⟨rfl, h⟩ | ⟨n, k, r, hn, tr, rfl, hl2, hm⟩
  · refine ⟨w', none, ?_, g, fun _ => h, fun _ h => (by cases h), fun _ h => (by cases h)⟩
    simp only [Ring.newShm, Unix.systemInfo, hl, e, bind, Except.bind, pure, Except.pure]
  · have wk := tr.wf wf
    have hh' : hint < t.lim := by omega
    cases r with
    | error err =>
      refine ⟨w', some (.error err), ?_, g, fun h => (by cases h), ?_, fun _ h => (by cases h)⟩
      · simp only [Ring.newShm, Unix.systemInfo, hl, e, bind, Except.bind, pure, Except.pure]
      · intro err' he
        injection he with he; injection he with he
        subst he
        have hr : Ring.new t k hint = .ok (w'.k, .error err) := by
          simp only [Ring.new, Unix.systemInfo, hl2, hm, bind, Except.bind, pure, Except.pure]
        obtain ⟨a, b, len', l, c, d, f⟩ := C26_C28_ring_new_fails t k w'.k wk hint hh' err hr
        rw [hl2] at c
        injection c with c
        subst c
        refine ⟨tr.same.trans a, b, n, k, len, l, hn, tr, ?_, d, f⟩
        obtain ⟨s, hs, hs2⟩ := wf.page
        rw [hs] at hl
        rw [round_eq (by omega) (by rw [← hs]; exact hh)] at hl
        injection hl with hl
        rw [hs, ← hl]
        exact isRoundUp_div (Nat.two_pow_pos s)
    | ok ptr =>
      refine ⟨w', some (.ok ⟨ptr, len, 0, 0⟩), ?_, g, fun h => (by cases h), fun _ h => (by cases h), ?_⟩
      · simp only [Ring.newShm, Unix.systemInfo, hl, e, bind, Except.bind, pure, Except.pure]
      · intro r he
        injection he with he; injection he with he
        subst he
        have hr : Ring.new t k hint = .ok (w'.k, .ok ⟨ptr, len, 0, 0⟩) := by
          simp only [Ring.new, Unix.systemInfo, hl2, hm, bind, Except.bind, pure, Except.pure]
        exact ⟨(C15_C25_ring_new t k w'.k wk hint hh' _ hr).1.before tr, .new wk hh' hr⟩

/-- C94: `InfiniteRing::new`. -/
theorem C94_infinite (t : Target) (w : ShmKernel) (wf : Wf t w.k) (rounds hint : Nat)
    (hh : hint + w.k.page < t.lim) (hc : ∀ i, i < rounds → 0 ≤ w.clock (w.k.tick + i)) :
    ∃ w' x, InfiniteRing.newShm t rounds w hint = .ok (w', x) ∧ w'.taken = w.taken ∧
      (x = none → Tries rounds w.k w'.k) ∧
      (∀ err, x = some (.error err) → SameWorld w.k w'.k ∧ Wf t w'.k ∧
        ∃ n k len l, n < rounds ∧ Tries n w.k k ∧
          IsRoundUp w.k.page hint len ∧ w'.k.log = l ++ k.log ∧ RingTrace len l err) ∧
      (∀ r, x = some (.ok r) → Made t w.k w'.k hint r.ptr (SeqWrite.writeCapacity r) ∧
        InfAt t w'.k r 0) := by
  obtain ⟨len, w', x, hl, e, g, h⟩ := newShm_cases wf rounds hint hh hc
  rcases h with ⟨rfl, h⟩ | ⟨n, k, r, hn, tr, rfl, hl2, hm⟩
  · refine ⟨w', none, ?_, g, fun _ => h, fun _ h => (by cases h), fun _ h => (by cases h)⟩
    simp only [InfiniteRing.newShm, Unix.systemInfo, hl, e, bind, Except.bind, pure, Except.pure]
  · have wk := tr.wf wf
    have hh' : hint < t.lim := by omega
    cases r with
    | error err =>
      refine ⟨w', some (.error err), ?_, g, fun h => (by cases h), ?_, fun _ h => (by cases h)⟩
      · simp only [InfiniteRing.newShm, Unix.systemInfo, hl, e, bind, Except.bind, pure, Except.pure]
      · intro err' he
        injection he with he; injection he with he
        subst he
        have hr : InfiniteRing.new t k hint = .ok (w'.k, .error err) := by
          simp only [InfiniteRing.new, Unix.systemInfo, hl2, hm, bind, Except.bind, pure, Except.pure]
        obtain ⟨a, b, len', l, c, d, f⟩ := C26_C28_infinite_new_fails t k w'.k wk hint hh' err hr
        rw [hl2] at c
        injection c with c
        subst c
        refine ⟨tr.same.trans a, b, n, k, len, l, hn, tr, ?_, d, f⟩
        obtain ⟨s, hs, hs2⟩ := wf.page
        rw [hs] at hl
        rw [round_eq (by omega) (by rw [← hs]; exact hh)] at hl
        injection hl with hl
        rw [hs, ← hl]
        exact isRoundUp_div (Nat.two_pow_pos s)
    | ok ptr =>
      refine ⟨w', some (.ok ⟨ptr, len, 0, 0⟩), ?_, g, fun h => (by cases h), fun _ h => (by cases h), ?_⟩
      · simp only [InfiniteRing.newShm, Unix.systemInfo, hl, e, bind, Except.bind, pure, Except.pure]
      · intro r he
        injection he with he; injection he with he
        subst he
        have hr : InfiniteRing.new t k hint = .ok (w'.k, .ok ⟨ptr, len, 0, 0⟩) := by
          simp only [InfiniteRing.new, Unix.systemInfo, hl2, hm, bind, Except.bind, pure, Except.pure]
        exact ⟨(C15_C25_infinite_new t k w'.k wk hint hh' _ hr).1.before tr, .new wk hh' hr⟩

/-- C94: every history of FIFO calls on such a ring answers as a bounded FIFO queue does. -/
theorem C94_fifo (t : Target) (w w' : ShmKernel) (wf : Wf t w.k) (rounds hint : Nat)
    (hh : hint + w.k.page < t.lim) (hc : ∀ i, i < rounds → 0 ≤ w.clock (w.k.tick + i)) (r : Ring)
    (made : Ring.newShm t rounds w hint = .ok (w', some (.ok r))) (ops : List RingOp)
    (q : List Byte) (rs : List Resp)
    (spec : fifoRun (SeqWrite.writeCapacity r) [] ops = some (q, rs))
    (below : fifoBelow (posBound t (SeqWrite.writeCapacity r)) (SeqWrite.writeCapacity r) 0 [] ops) :
    ∃ k' r', r.execAll t w'.k ops = .ok ((k', r'), rs) ∧ r'.fillBuf t k' = .ok q := by
  obtain ⟨w1, x, e, -, -, -, h⟩ := C94_ring t w wf rounds hint hh hc
  rw [made] at e
  injection e with e; injection e with e1 e2
  subst e1 e2
  obtain ⟨-, h⟩ := h r rfl
  exact C07_ring_history t w'.k r 0 h [] h.empty ops q rs spec below

/-- C94: every history on such an infinite ring answers as a lossy queue does. -/
theorem C94_lossy (t : Target) (w w' : ShmKernel) (wf : Wf t w.k) (rounds hint : Nat)
    (hh : hint + w.k.page < t.lim) (hc : ∀ i, i < rounds → 0 ≤ w.clock (w.k.tick + i))
    (r : InfiniteRing) (made : InfiniteRing.newShm t rounds w hint = .ok (w', some (.ok r)))
    (ops : List InfOp) (q : List Byte) (rs : List Resp)
    (spec : lossyRun (SeqWrite.writeCapacity r) [] ops = some (q, rs))
    (below : lossyTraffic (SeqWrite.writeCapacity r) ops < posBound t (SeqWrite.writeCapacity r)) :
    ∃ k' r', r.execAll t w'.k ops = .ok ((k', r'), rs) ∧ r'.fillBuf t k' = .ok q := by
  obtain ⟨w1, x, e, -, -, -, h⟩ := C94_infinite t w wf rounds hint hh hc
  rw [made] at e
  injection e with e; injection e with e1 e2
  subst e1 e2
  obtain ⟨-, h⟩ := h r rfl
  exact C19_infinite_history t w'.k r 0 h [] h.empty ops q rs spec (by rw [Nat.zero_add]; exact below)

/-- The first two names are taken (names are `/vmap-` and the digits of the clock). -/
def shmDemo (fail : Nat) : ShmKernel :=
  ⟨demo fail, fun n => n == shmPrefix ++ [48, 48, 48, 48, 48, 48, 49] ||
    n == shmPrefix ++ [48, 48, 48, 48, 48, 48, 50], fun n => n + 1⟩

/-- Non-vacuity: the third name gives a ring of two pages; the calls that follow are those of
`Ring::new` elsewhere. -/
example : Wf ⟨.w64, true⟩ (shmDemo 0).k ∧
    (∀ i, 0 ≤ (shmDemo 0).clock ((shmDemo 0).k.tick + i)) ∧
    ∃ w' r, Ring.newShm ⟨.w64, true⟩ 5 (shmDemo 0) 5000 = .ok (w', some (.ok r)) ∧
      SeqWrite.writeCapacity r = 8192 ∧ w'.k.tick = 8 := by
  refine ⟨demo_wf 0, fun i => (by simp only [shmDemo]; omega), ?_⟩
  have h : (Ring.newShm ⟨.w64, true⟩ 5 (shmDemo 0) 5000).map (fun x => (x.1.k.tick, x.2)) =
    .ok (8, some (.ok ⟨20480000, 8192, 0, 0⟩)) := by decide +kernel
  cases hx : Ring.newShm ⟨.w64, true⟩ 5 (shmDemo 0) 5000 with
  | error f => rw [hx] at h; cases h
  | ok x =>
    rw [hx] at h
    injection h with h
    injection h with h1 h2
    exact ⟨x.1, ⟨20480000, 8192, 0, 0⟩, by rw [← h2], rfl, h1⟩

/-- Two rounds are not enough, and a failing `ftruncate` is an error of `memory_fd`. -/
example : (Ring.newShm ⟨.w64, true⟩ 2 (shmDemo 0) 5000).map (fun x => x.2.isNone) = .ok true ∧
    (Ring.newShm ⟨.w64, true⟩ 5 (shmDemo 8) 5000).map (fun x => x.2.map (fun r => r.toOption.isNone)) =
      .ok (some true) := by
  constructor <;> decide +kernel

example : (InfiniteRing.newShm ⟨.w64, true⟩ 5 (shmDemo 0) 4096).map (fun x => x.2) =
    .ok (some (.ok ⟨20480000, 4096, 0, 0⟩)) := by
  decide +kernel

end Vmap
