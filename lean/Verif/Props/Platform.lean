import Verif.Proofs.Platform
/-
Property theorems C91 and C92: rings on Windows and macOS behave as on the other platforms.
-/
namespace Vmap
open Spec Kernel

/-- C07 for whole histories, from any reachable ring: with contents `q`, every history of FIFO calls
answers as the bounded queue with contents `q` does. -/
theorem C07_ring_history (t : Target) (k : Kernel) (r : Ring) (n : Nat) (h : RingAt t k r n)
    (q : List Byte) (hq : r.fillBuf t k = .ok q) (ops : List RingOp) (q' : List Byte) (rs : List Resp)
    (spec : fifoRun (SeqWrite.writeCapacity r) q ops = some (q', rs))
    (below : fifoBelow (posBound t (SeqWrite.writeCapacity r)) (SeqWrite.writeCapacity r) n q ops) :
    ∃ k' r', r.execAll t k ops = .ok ((k', r'), rs) ∧ r'.fillBuf t k' = .ok q' := by
  obtain ⟨o, s, h1, h2, -, -⟩ := h.inv
  rw [h1.fillBuf_eq] at hq
  injection hq with hq
  subst hq
  subst h2
  obtain ⟨b, e1, e2⟩ := fifo_run ops s (cap := r.len) (bound := posBound t r.len)
    (by simp [Win.all, h1.len_eq]) spec below
  obtain ⟨k', r', e, h', -⟩ := ring_run ops h1 b
  exact ⟨k', r', by rw [e, e2], by rw [h'.fillBuf_eq, e1]⟩

/-- Non-vacuity: a ring that holds three bytes; one call. -/
example : ∃ k r, RingAt ⟨.w64, true⟩ k r 3 ∧ r.fillBuf ⟨.w64, true⟩ k = .ok [1, 2, 3] ∧
    fifoRun (SeqWrite.writeCapacity r) [1, 2, 3] [.read 2, .readLen] = some ([3], [.bytes [1, 2], .num 1]) ∧
    fifoBelow (posBound ⟨.w64, true⟩ (SeqWrite.writeCapacity r)) (SeqWrite.writeCapacity r) 3 [1, 2, 3]
      [.read 2, .readLen] := by
  obtain ⟨k, r, h1, h2⟩ := demo_ringAt
  exact ⟨k, r, h1, h2, rfl, by simp [fifoBelow, fifoStep, fifoAdded, posBound, lim64]; split <;>
    simp_all [Target.lim, Width.bits]⟩

/-- C19 for whole histories, from any reachable infinite ring. -/
theorem C19_infinite_history (t : Target) (k : Kernel) (r : InfiniteRing) (n : Nat) (h : InfAt t k r n)
    (q : List Byte) (hq : r.fillBuf t k = .ok q) (ops : List InfOp) (q' : List Byte) (rs : List Resp)
    (spec : lossyRun (SeqWrite.writeCapacity r) q ops = some (q', rs))
    (below : n + lossyTraffic (SeqWrite.writeCapacity r) ops < posBound t (SeqWrite.writeCapacity r)) :
    ∃ k' r', r.execAll t k ops = .ok ((k', r'), rs) ∧ r'.fillBuf t k' = .ok q' := by
  obtain ⟨o, s, h1, h2, -, -⟩ := h.inv
  rw [h1.fillBuf_eq] at hq
  injection hq with hq
  subst hq
  subst h2
  exact inf_run ops h1 spec below

/-- Non-vacuity: a new infinite ring; two calls. -/
example : ∃ k r, InfAt ⟨.w64, true⟩ k r 0 ∧ r.fillBuf ⟨.w64, true⟩ k = .ok [] ∧
    lossyRun (SeqWrite.writeCapacity r) [] [.writeAll [7, 8], .call (.read 1)] = some ([8], [.unit, .bytes [7]]) ∧
    0 + lossyTraffic (SeqWrite.writeCapacity r) [.writeAll [7, 8], .call (.read 1)] <
      posBound ⟨.w64, true⟩ (SeqWrite.writeCapacity r) := by
  obtain ⟨k, r, hr, hl⟩ : ∃ k r, InfiniteRing.new ⟨.w64, true⟩ (demo 0) 4096 = .ok (k, .ok r) ∧
    r.len = 4096 := ⟨_, _, rfl, rfl⟩
  have h := InfAt.new (demo_wf 0) (by simp [Target.lim, Width.bits]) hr
  obtain ⟨o, hrep, -, -⟩ := infRep_new (demo_wf 0) (by simp [Target.lim, Width.bits]) hr
  refine ⟨k, r, h, hrep.fillBuf_eq, ?_, ?_⟩
  · show lossyRun r.len _ _ = _
    rw [hl]; rfl
  · show 0 + lossyTraffic r.len _ < posBound _ r.len
    rw [hl]; decide

/-- A new ring is empty. -/
theorem RingAt.empty {t : Target} {k : Kernel} {r : Ring} (h : RingAt t k r 0) :
    r.fillBuf t k = .ok [] := by
  obtain ⟨o, s, h1, h2, -, -⟩ := h.inv
  have := h1.qlen
  have := h1.total
  rw [h1.fillBuf_eq, List.eq_nil_of_length_eq_zero (l := s.q) (by omega)]

/-- A new infinite ring is empty. -/
theorem InfAt.empty {t : Target} {k : Kernel} {r : InfiniteRing} (h : InfAt t k r 0) :
    r.fillBuf t k = .ok [] := by
  obtain ⟨o, s, h1, h2, -, -⟩ := h.inv
  have := h1.qlen
  have := h1.total
  have := h1.le
  rw [h1.fillBuf_eq, List.eq_nil_of_length_eq_zero (l := s.q) (by omega)]

/-! ### C91: Windows -/

/-- What both constructors rest on. -/
theorem winMade {t : Target} {s s' : Vmap.Win} (w : WinWf t s) {hint len ptr : Nat} (hh : hint < t.lim)
    (hlen : s.sizeAlloc.round t hint = .ok len) (hm : s.mapRing t len = .ok (s', .ok ptr)) :
    IsRoundUp s.gran hint len ∧ WinRing t s s' ptr len ∧ WinRest s s' ∧ WinWf t s' ∧
      (WinLaid t s → WinLaid t s') ∧ ∀ k obj, WinMem s' k obj → k.Circular t ptr len := by
  obtain ⟨a, b, -, hb, -, hbits⟩ := w.sizes
  obtain ⟨hcap, hdvd, hlt⟩ := round_cases (u := s.gran) ⟨b, hb, by omega⟩ hh hlen
  have hgood : 0 < len ∧ 2 * len < t.lim := by
    apply Decidable.byContradiction
    intro hn
    exact Win.mapRing_bad s hlt (by omega) hm
  obtain ⟨s1, r1, h1, h2, h3, -, h4, -⟩ := C31_map_ring t w hgood.1 hgood.2
  rw [hm] at h1
  injection h1 with h1
  injection h1 with h1 h1'
  subst h1 h1'
  obtain ⟨hring, -⟩ := h4 ptr rfl
  rcases hcap with rfl | hcap
  · exact absurd hgood.1 (Nat.lt_irrefl _)
  · exact ⟨hcap, hring, h2, h3, fun hl => WinLaid.ring hl hgood.1 hdvd hring h2,
      fun k obj m => WinRing.circular w hgood.1 hdvd hring h2.page m⟩

/-- C91: `Ring::new` on Windows.  The capacity is the least multiple of the allocation granularity that
is at least the hint, the ring is there as C31 says, nothing else changed; and it is a new ring
in the sense of all theorems about reachable rings (C07–C14, C17, C18, C27, C71, …). -/
theorem C91_windows_ring (t : Target) {s s' : Vmap.Win} (w : WinWf t s) (hint : Nat) (hh : hint < t.lim)
    (r : Ring) (made : s.ringNew t hint = .ok (s', .ok r)) :
    IsRoundUp s.gran hint (SeqWrite.writeCapacity r) ∧
      WinRing t s s' r.ptr (SeqWrite.writeCapacity r) ∧ WinRest s s' ∧ WinWf t s' ∧
      (WinLaid t s → WinLaid t s') ∧ ∀ k obj, Wf t k → WinMem s' k obj → RingAt t k r 0 := by
  simp only [Win.ringNew, bind, Except.bind] at made
  split at made
  · cases made
  rename_i len hlen
  split at made
  · cases made
  rename_i x hm
  obtain ⟨s1, r1⟩ := x
  cases r1 with
  | error e => cases made
  | ok ptr =>
    cases made
    obtain ⟨h1, h2, h3, h4, h5, h6⟩ := winMade w hh hlen hm
    exact ⟨h1, h2, h3, h4, h5, fun k obj wf m => .placed wf (h6 k obj m) rfl rfl⟩

/-- C91: every history of FIFO calls on a new ring answers on Windows as a bounded FIFO queue does. -/
theorem C91_windows_fifo (t : Target) {s s' : Vmap.Win} (w : WinWf t s) (hint : Nat) (hh : hint < t.lim)
    (r : Ring) (made : s.ringNew t hint = .ok (s', .ok r)) (k : Kernel) (wf : Wf t k)
    (obj : Nat → Obj) (mem : WinMem s' k obj) (ops : List RingOp) (q : List Byte) (rs : List Resp)
    (spec : fifoRun (SeqWrite.writeCapacity r) [] ops = some (q, rs))
    (below : fifoBelow (posBound t (SeqWrite.writeCapacity r)) (SeqWrite.writeCapacity r) 0 [] ops) :
    ∃ k' r', r.execAll t k ops = .ok ((k', r'), rs) ∧ r'.fillBuf t k' = .ok q := by
  obtain ⟨-, -, -, -, -, h⟩ := C91_windows_ring t w hint hh r made
  have h := h k obj wf mem
  exact C07_ring_history t k r 0 h [] h.empty ops q rs spec below

/-- C91: `InfiniteRing::new` on Windows. -/
theorem C91_windows_infinite (t : Target) {s s' : Vmap.Win} (w : WinWf t s) (hint : Nat) (hh : hint < t.lim)
    (r : InfiniteRing) (made : s.infNew t hint = .ok (s', .ok r)) :
    IsRoundUp s.gran hint (SeqWrite.writeCapacity r) ∧
      WinRing t s s' r.ptr (SeqWrite.writeCapacity r) ∧ WinRest s s' ∧ WinWf t s' ∧
      (WinLaid t s → WinLaid t s') ∧ ∀ k obj, Wf t k → WinMem s' k obj → InfAt t k r 0 := by
  simp only [Win.infNew, bind, Except.bind] at made
  split at made
  · cases made
  rename_i len hlen
  split at made
  · cases made
  rename_i x hm
  obtain ⟨s1, r1⟩ := x
  cases r1 with
  | error e => cases made
  | ok ptr =>
    cases made
    obtain ⟨h1, h2, h3, h4, h5, h6⟩ := winMade w hh hlen hm
    exact ⟨h1, h2, h3, h4, h5, fun k obj wf m => .placed wf (h6 k obj m) rfl rfl⟩

/-- C91: every history on a new infinite ring answers on Windows as a lossy queue does. -/
theorem C91_windows_lossy (t : Target) {s s' : Vmap.Win} (w : WinWf t s) (hint : Nat) (hh : hint < t.lim)
    (r : InfiniteRing) (made : s.infNew t hint = .ok (s', .ok r)) (k : Kernel) (wf : Wf t k)
    (obj : Nat → Obj) (mem : WinMem s' k obj) (ops : List InfOp) (q : List Byte) (rs : List Resp)
    (spec : lossyRun (SeqWrite.writeCapacity r) [] ops = some (q, rs))
    (below : lossyTraffic (SeqWrite.writeCapacity r) ops < posBound t (SeqWrite.writeCapacity r)) :
    ∃ k' r', r.execAll t k ops = .ok ((k', r'), rs) ∧ r'.fillBuf t k' = .ok q := by
  obtain ⟨-, -, -, -, -, h⟩ := C91_windows_infinite t w hint hh r made
  have h := h k obj wf mem
  exact C19_infinite_history t k r 0 h [] h.empty ops q rs spec (by rw [Nat.zero_add]; exact below)

/-- Every process whose views are laid out properly has a memory, so the theorems above are about
something. -/
theorem C91_memory (t : Target) {s : Vmap.Win} (h : WinLaid t s) :
    ∃ k obj, Wf t k ∧ WinMem s k obj := ⟨_, _, WinLaid.memory h⟩

theorem winDemo_laid (bad : List Nat) : WinLaid ⟨.w64, true⟩ (winDemo bad) :=
  ⟨⟨12, 16, rfl, rfl, by decide, by decide⟩, fun _ h => (nomatch h), .nil⟩

/-- Non-vacuity: the first attempt loses the race, the second one gives a ring of one granule; the
process has a memory in which it is a new ring. -/
example : WinWf ⟨.w64, true⟩ (winDemo [4]) ∧ WinLaid ⟨.w64, true⟩ (winDemo [4]) ∧
    ∃ s' r k, (winDemo [4]).ringNew ⟨.w64, true⟩ 5000 = .ok (s', .ok r) ∧
    SeqWrite.writeCapacity r = 65536 ∧ RingAt ⟨.w64, true⟩ k r 0 := by
  refine ⟨winDemo_wf [4], winDemo_laid [4], ?_⟩
  have h : ∃ s' r, (winDemo [4]).ringNew ⟨.w64, true⟩ 5000 = .ok (s', .ok r) ∧
      SeqWrite.writeCapacity r = 65536 := by
    have h : ((winDemo [4]).ringNew ⟨.w64, true⟩ 5000).map (·.2) =
      .ok (.ok ⟨73400320, 65536, 0, 0⟩) := by decide +kernel
    cases hx : (winDemo [4]).ringNew ⟨.w64, true⟩ 5000 with
    | error f => rw [hx] at h; cases h
    | ok x =>
      rw [hx] at h
      injection h with h
      exact ⟨x.1, ⟨73400320, 65536, 0, 0⟩, by rw [← h], rfl⟩
  obtain ⟨s', r, hm, hc⟩ := h
  obtain ⟨-, -, -, -, hl, hr⟩ := C91_windows_ring _ (winDemo_wf [4]) 5000 (by decide) r hm
  obtain ⟨k, obj, wf, mem⟩ := C91_memory _ (hl (winDemo_laid _))
  exact ⟨s', r, k, hm, hc, hr k obj wf mem⟩

/-- Non-vacuity: an infinite ring of two granules. -/
example : ((winDemo []).infNew ⟨.w64, true⟩ 70000).map (·.2) = .ok (.ok ⟨68157440, 131072, 0, 0⟩) := by
  decide +kernel

/-! ### C92: macOS -/

/-- What both constructors rest on. -/
theorem machMade {t : Target} {s s' : Mach} (w : MachWf s) (l : MachLaid t s) {hint len ptr : Nat}
    (hh : hint < t.lim) (hlen : (Size.withSize s.page).round t hint = .ok len)
    (hm : s.mapRing t len = .ok (s', .ok ptr)) :
    IsRoundUp s.page hint len ∧ MachRing t s s' ptr (len / s.page) ∧ s'.page = s.page ∧ MachWf s' ∧
      MachLaid t s' ∧ ∀ k obj, MachMem s' k obj s.fresh → k.Circular t ptr len := by
  obtain ⟨hcap, hdvd, hlt⟩ := round_cases l.page hh hlen
  obtain ⟨n, hn⟩ := hdvd
  rw [Nat.mul_comm] at hn
  subst hn
  rw [Nat.mul_div_cancel _ w.page]
  obtain ⟨hp, hw⟩ := Mach.goes_mapRing t s s' _ _ hm
  have hgood : 0 < n ∧ 2 * (n * s.page) < t.lim := by
    apply Decidable.byContradiction
    intro hn
    exact Mach.mapRing_bad w.page (by omega) hm
  obtain ⟨s1, r1, h1, h2, -⟩ := C30_partial t w hgood.1 hgood.2
  rw [hm] at h1
  injection h1 with h1
  injection h1 with h1 h1'
  subst h1 h1'
  obtain ⟨hring, -⟩ := h2 ptr rfl
  rcases hcap with h | hcap
  · have := Nat.mul_pos hgood.1 w.page
    omega
  · exact ⟨hcap, hring, hp, hw w, MachLaid.ring l hring hp,
      fun k obj m => MachRing.circular w hgood.1 hring hp m⟩

/-- C92: `Ring::new` on macOS.  The capacity is the least multiple of the page size that is at least
the hint, the ring is there as C30 says; and it is a new ring in the sense of all theorems
about reachable rings. -/
theorem C92_macos_ring (t : Target) {s s' : Mach} (w : MachWf s) (l : MachLaid t s) (hint : Nat)
    (hh : hint < t.lim) (r : Ring) (made : s.ringNew t hint = .ok (s', .ok r)) :
    IsRoundUp s.page hint (SeqWrite.writeCapacity r) ∧
      MachRing t s s' r.ptr (SeqWrite.writeCapacity r / s.page) ∧ MachWf s' ∧ MachLaid t s' ∧
      ∀ k obj, Wf t k → MachMem s' k obj s.fresh → RingAt t k r 0 := by
  simp only [Mach.ringNew, bind, Except.bind] at made
  split at made
  · cases made
  rename_i len hlen
  split at made
  · cases made
  rename_i x hm
  obtain ⟨s1, r1⟩ := x
  cases r1 with
  | error e => cases made
  | ok ptr =>
    cases made
    obtain ⟨h1, h2, h3, h4, h5, h6⟩ := machMade w l hh hlen hm
    exact ⟨h1, h2, h4, h5, fun k obj wf m => .placed wf (h6 k obj m) rfl rfl⟩

/-- C92: every history of FIFO calls on a new ring answers on macOS as a bounded FIFO queue does. -/
theorem C92_macos_fifo (t : Target) {s s' : Mach} (w : MachWf s) (l : MachLaid t s) (hint : Nat)
    (hh : hint < t.lim) (r : Ring) (made : s.ringNew t hint = .ok (s', .ok r)) (k : Kernel)
    (wf : Wf t k) (obj : Nat → Obj) (mem : MachMem s' k obj s.fresh) (ops : List RingOp)
    (q : List Byte) (rs : List Resp)
    (spec : fifoRun (SeqWrite.writeCapacity r) [] ops = some (q, rs))
    (below : fifoBelow (posBound t (SeqWrite.writeCapacity r)) (SeqWrite.writeCapacity r) 0 [] ops) :
    ∃ k' r', r.execAll t k ops = .ok ((k', r'), rs) ∧ r'.fillBuf t k' = .ok q := by
  obtain ⟨-, -, -, -, h⟩ := C92_macos_ring t w l hint hh r made
  have h := h k obj wf mem
  exact C07_ring_history t k r 0 h [] h.empty ops q rs spec below

/-- C92: `InfiniteRing::new` on macOS. -/
theorem C92_macos_infinite (t : Target) {s s' : Mach} (w : MachWf s) (l : MachLaid t s) (hint : Nat)
    (hh : hint < t.lim) (r : InfiniteRing) (made : s.infNew t hint = .ok (s', .ok r)) :
    IsRoundUp s.page hint (SeqWrite.writeCapacity r) ∧
      MachRing t s s' r.ptr (SeqWrite.writeCapacity r / s.page) ∧ MachWf s' ∧ MachLaid t s' ∧
      ∀ k obj, Wf t k → MachMem s' k obj s.fresh → InfAt t k r 0 := by
  simp only [Mach.infNew, bind, Except.bind] at made
  split at made
  · cases made
  rename_i len hlen
  split at made
  · cases made
  rename_i x hm
  obtain ⟨s1, r1⟩ := x
  cases r1 with
  | error e => cases made
  | ok ptr =>
    cases made
    obtain ⟨h1, h2, h3, h4, h5, h6⟩ := machMade w l hh hlen hm
    exact ⟨h1, h2, h4, h5, fun k obj wf m => .placed wf (h6 k obj m) rfl rfl⟩

/-- C92: every history on a new infinite ring answers on macOS as a lossy queue does. -/
theorem C92_macos_lossy (t : Target) {s s' : Mach} (w : MachWf s) (l : MachLaid t s) (hint : Nat)
    (hh : hint < t.lim) (r : InfiniteRing) (made : s.infNew t hint = .ok (s', .ok r)) (k : Kernel)
    (wf : Wf t k) (obj : Nat → Obj) (mem : MachMem s' k obj s.fresh) (ops : List InfOp)
    (q : List Byte) (rs : List Resp)
    (spec : lossyRun (SeqWrite.writeCapacity r) [] ops = some (q, rs))
    (below : lossyTraffic (SeqWrite.writeCapacity r) ops < posBound t (SeqWrite.writeCapacity r)) :
    ∃ k' r', r.execAll t k ops = .ok ((k', r'), rs) ∧ r'.fillBuf t k' = .ok q := by
  obtain ⟨-, -, -, -, h⟩ := C92_macos_infinite t w l hint hh r made
  have h := h k obj wf mem
  exact C19_infinite_history t k r 0 h [] h.empty ops q rs spec (by rw [Nat.zero_add]; exact below)

/-- Every task laid out properly has a memory. -/
theorem C92_memory (t : Target) {s : Mach} (w : MachWf s) (l : MachLaid t s) (n : Nat) :
    ∃ k obj, Wf t k ∧ MachMem s k obj n :=
  ⟨_, _, (MachLaid.memory l w).1, (MachLaid.memory l w).2 n⟩

theorem machDemo_laid : MachLaid ⟨.w64, true⟩ machDemo :=
  ⟨⟨12, rfl, by decide⟩, fun _ _ _ h => (nomatch h)⟩

/-- Non-vacuity: a ring of two pages, in a memory of the example task. -/
example : MachWf machDemo ∧ MachLaid ⟨.w64, true⟩ machDemo ∧
    ∃ s' r k, machDemo.ringNew ⟨.w64, true⟩ 5000 = .ok (s', .ok r) ∧
    SeqWrite.writeCapacity r = 8192 ∧ RingAt ⟨.w64, true⟩ k r 0 := by
  refine ⟨machDemo_wf, machDemo_laid, ?_⟩
  have h : ∃ s' r, machDemo.ringNew ⟨.w64, true⟩ 5000 = .ok (s', .ok r) ∧
      SeqWrite.writeCapacity r = 8192 := ⟨_, ⟨4096000, 8192, 0, 0⟩, by rfl, rfl⟩
  obtain ⟨s', r, hm, hc⟩ := h
  obtain ⟨-, -, hw, hl, hr⟩ := C92_macos_ring _ machDemo_wf machDemo_laid 5000 (by decide) r hm
  obtain ⟨k, obj, wf, mem⟩ := C92_memory _ hw hl machDemo.fresh
  exact ⟨s', r, k, hm, hc, hr k obj wf mem⟩

/-- Non-vacuity: an infinite ring of one page. -/
example : (machDemo.infNew ⟨.w32, false⟩ 1).map (·.2) = .ok (.ok ⟨4096000, 4096, 0, 0⟩) := by
  decide +kernel

end Vmap
