import Verif.Props.Platform
import Verif.Props.Mach
import Verif.Props.RingMap
/-
Property theorem C140: rings that do not fit the address space.
-/
namespace Vmap
open Spec Kernel

/-- C140 in full: a ring whose two halves together do not fit the address space is refused with an error,
which changes nothing; on Unix, on Windows and on macOS.  False of the code on Windows and macOS:
`C140_false`, `C140_macos_destroys`. -/
def C140_full : Prop :=
  (∀ (t : Target) (k : Kernel) (hint len : Nat), Wf t k → hint + k.page < t.lim →
    IsRoundUp k.page hint len → t.lim ≤ 2 * len →
    ∃ k' e, Ring.new t k hint = .ok (k', .error e) ∧ SameWorld k k') ∧
  (∀ (t : Target) (s : Win) (hint len : Nat), WinWf t s → hint + s.gran < t.lim →
    IsRoundUp s.gran hint len → t.lim ≤ 2 * len →
    ∃ s' e, s.ringNew t hint = .ok (s', .error e) ∧ s'.views = s.views ∧ WinRest s s') ∧
  (∀ (t : Target) (s : Mach) (hint len : Nat), MachWf s → MachLaid t s → hint + s.page < t.lim →
    IsRoundUp s.page hint len → t.lim ≤ 2 * len →
    ∃ s' e, s.ringNew t hint = .ok (s', .error e) ∧ s'.pt = s.pt ∧ s'.ports = s.ports)

theorem round_unique {u x a b : Nat} (h1 : IsRoundUp u x a) (h2 : IsRoundUp u x b) : a = b :=
  Nat.le_antisymm (h1.2.2 b h2.1 h2.2.1) (h2.2.2 a h1.1 h1.2.1)

/-- The capacity a hint leads to, when rounding does not overflow. -/
theorem round_of {t : Target} {u hint len : Nat} (hu : ∃ a, u = 2 ^ a ∧ a < t.width.bits)
    (hh : hint + u < t.lim) (hr : IsRoundUp u hint len) :
    (Size.withSize u).round t hint = .ok len ∧ len < t.lim := by
  obtain ⟨a, ha, hb⟩ := hu
  have hp : 0 < u := by rw [ha]; exact Nat.two_pow_pos a
  have h1 : (Size.withSize u).round t hint = .ok ((hint + u - 1) / u * u) := by
    rw [ha] at hh ⊢; exact round_eq hb hh
  have h2 := round_unique hr (isRoundUp_div (len := hint) hp)
  have h3 : (hint + u - 1) / u * u ≤ hint + u - 1 := Nat.div_mul_le_self _ _
  exact ⟨by rw [h1, h2], by rw [h2]; omega⟩

/-- C140 on Unix: such a ring is refused, and nothing is changed. -/
theorem C140_unix (t : Target) (k : Kernel) (wf : Wf t k) {hint len : Nat} (hh : hint + k.page < t.lim)
    (hr : IsRoundUp k.page hint len) (big : t.lim ≤ 2 * len) :
    (∃ k' e, Ring.new t k hint = .ok (k', .error e) ∧ SameWorld k k') ∧
    (∃ k' e, InfiniteRing.new t k hint = .ok (k', .error e) ∧ SameWorld k k') := by
  have hl := (round_of (by obtain ⟨a, h1, h2⟩ := wf.page; exact ⟨a, h1, by omega⟩) hh hr).1
  rcases Posix.mapRing_cases wf hr.1 with
    ⟨k1, err, l, he, a1, -⟩ | ⟨k1, p, n, he, w, kp, fd, hn, hn0, hp0, hfit, -⟩
  · refine ⟨⟨k1, err, ?_, a1⟩, ⟨k1, err, ?_, a1⟩⟩
    · simp only [Ring.new, Unix.systemInfo, bind, Except.bind, hl, he]; rfl
    · simp only [InfiniteRing.new, Unix.systemInfo, bind, Except.bind, hl, he]; rfl
  · exfalso
    have hpp := wf.page_pos
    have : (2 * n + 1) * k.page ≤ (p + 2 * n) * k.page := Nat.mul_le_mul_right _ (by omega)
    rw [Nat.add_mul, Nat.mul_assoc, ← hn] at this
    omega

namespace Win

/-- A view longer than its section is refused. -/
theorem mapRingLoop_short {t : Target} {h : Nat} {sec : Section} {len full : Nat} (hl : 0 < len)
    (hf : 0 < full) (hsz : sec.size < len) :
    ∀ (left : Nat) {s : Win}, WinWf t s → s.handles h = some sec →
      ∃ s' e, mapRingLoop t left s h len full = .ok (s', .error e) ∧ s'.views = s.views ∧ WinRest s s' ∧
        WinWf t s'
  | left, s, w, hs => by
    have r0 : ∀ c, WinRest s (s.did c) := fun c => ⟨rfl, rfl, rfl, rfl, rfl, .eq rfl rfl⟩
    rw [mapRingLoop]
    rcases reserve_cases w hf with ⟨e, he⟩ | ⟨pg, hp, -, he⟩
    · rw [he]
      exact ⟨_, _, rfl, rfl, r0 _, WinRest.wf w (r0 _) rfl rfl⟩
    · rw [he]
      generalize hs1 : (s.did (.virtualAlloc full)).did (.virtualFree pg) = s1
      have r1 : WinRest s s1 := by rw [← hs1]; exact ⟨rfl, rfl, rfl, rfl, rfl, .eq rfl rfl⟩
      have v1 : s1.views = s.views := by rw [← hs1]; rfl
      have n1 : s1.next = s.next := by rw [← hs1]; rfl
      have g1 : s1.handles h = some sec := by rw [r1.handles]; exact hs
      simp only [mapRingHandle, bind, Except.bind]
      rcases view_cases (t := t) s1 g1 .ringPrimary { read := true, write := true } (off := 0) len pg
        t.lim_pos with ⟨e, hv⟩ | ⟨base, n, h1, h2, -, -, h3, -⟩
      · rw [hv]
        simp only [pure, Except.pure]
        have r2 : WinRest s (s1.did (.mapViewOfFileEx h { read := true, write := true } (0 / 2 ^ 32)
            (0 % 2 ^ 32) len pg)) := r1.trans ⟨rfl, rfl, rfl, rfl, rfl, .eq rfl rfl⟩
        have w2 := WinRest.wf w r2 n1 v1
        cases left with
        | zero => exact ⟨_, _, rfl, v1, r2, w2⟩
        | succ left =>
          obtain ⟨s', e', q1, q2, q3, q4⟩ := mapRingLoop_short hl hf hsz left w2
            (by rw [r2.handles]; exact hs)
          exact ⟨s', e', q1, by rw [q2]; exact v1, r2.trans q3, q4⟩
      · exfalso
        rw [if_neg (by omega)] at h2
        omega

end Win

theorem mulU_over {t : Target} {len : Nat} (hl : len < t.lim) (big : t.lim ≤ 2 * len) :
    mulU t 2 len = if t.checks then .error .panic else .ok (2 * len - t.lim) := by
  rw [mulU, mulL, if_neg (by omega)]
  congr 2
  rw [Nat.mod_eq_sub_mod big, Nat.mod_eq_of_lt (by omega)]

/-- C140 on Windows, release builds: such a ring is refused; every address shows what it showed, and the
same handles are open.  (Missing: debug builds, which panic, `C140_debug`.) -/
theorem C140_windows_partial (t : Target) {s : Win} (wf : WinWf t s) {hint len : Nat}
    (hh : hint + s.gran < t.lim) (hr : IsRoundUp s.gran hint len) (big : t.lim ≤ 2 * len)
    (release : t.checks = false) :
    (∃ s' e, s.ringNew t hint = .ok (s', .error e) ∧ s'.views = s.views ∧ WinRest s s') ∧
    (∃ s' e, s.infNew t hint = .ok (s', .error e) ∧ s'.views = s.views ∧ WinRest s s') := by
  obtain ⟨hl, hlt⟩ := round_of (by obtain ⟨a, b, -, h1, -, h2⟩ := wf.sizes; exact ⟨b, h1, by omega⟩) hh hr
  have key : ∃ s' e, s.mapRing t len = .ok (s', .error e) ∧ s'.views = s.views ∧ WinRest s s' := by
    have h0 := t.lim_pos
    have hm := mulU_over hlt big
    rw [release] at hm
    simp only [Win.mapRing, hm, bind, Except.bind, Bool.false_eq_true, if_false]
    generalize hfull : 2 * len - t.lim = full
    rcases Win.handleNew_cases (t := t) s .ringAllocate none .readwrite (len := full) (by omega) with
      ⟨e, he⟩ | ⟨size, h1, h2, -, he⟩
    · rw [he]
      exact ⟨_, _, rfl, rfl, ⟨rfl, rfl, rfl, rfl, rfl, .eq rfl rfl⟩⟩
    · rw [he]
      have hsz := h2 rfl
      generalize hs1 : ({ s.did (.createFileMapping none .readwrite (full / 2 ^ 32) (full % 2 ^ 32)) with
        handles := fun h => if h = s.next then some ⟨s.next, none, .readwrite, size⟩ else s.handles h
        next := s.next + 1
        bytes := s.bytes.newSection s.next } : Win) = s1
      have w1 : WinWf t s1 := by
        rw [← hs1]
        refine ⟨wf.sizes, fun v hv => ?_, wf.reserved, fun h sec hh => ?_⟩
        · have := wf.views v hv
          exact ⟨this.1, Nat.lt_succ_of_lt this.2⟩
        · have hh : (if h = s.next then some _ else s.handles h) = some sec := hh
          show h < s.next + 1 ∧ sec.id < s.next + 1
          split at hh
          · injection hh with hh; rw [← hh]; rename_i he; rw [he]
            exact ⟨Nat.lt_succ_self _, Nat.lt_succ_self _⟩
          · have := wf.handles h sec hh
            omega
      have g1 : s1.handles s.next = some ⟨s.next, none, .readwrite, size⟩ := by rw [← hs1]; exact if_pos rfl
      obtain ⟨s', e, q1, q2, q3, -⟩ := Win.mapRingLoop_short (t := t) (h := s.next)
        (sec := ⟨s.next, none, .readwrite, size⟩) (len := len) (full := full) (by omega) (by omega)
        (by show size < len; omega) 5 w1 g1
      simp only [q1]
      refine ⟨_, _, rfl, ?_, ?_⟩
      · show s'.views = _
        rw [q2, ← hs1]; rfl
      · refine ⟨?_, ?_, ?_, ?_, ?_, ?_⟩
        · funext q
          show (if q = s.next then none else s'.handles q) = s.handles q
          rw [q3.handles, ← hs1]
          show (if q = s.next then none else if q = s.next then some _ else s.handles q) = s.handles q
          by_cases hq : q = s.next
          · rw [if_pos hq, hq]
            cases hx : s.handles s.next with
            | none => rfl
            | some sec => have := (wf.handles _ _ hx).1; omega
          · rw [if_neg hq, if_neg hq]
        · show s'.reserved = _
          rw [q3.reserved, ← hs1]; rfl
        · show s'.files = _
          rw [q3.files, ← hs1]; rfl
        · show s'.page = _
          rw [q3.page, ← hs1]; rfl
        · show s'.gran = _
          rw [q3.gran, ← hs1]; rfl
        · have b1 : WinSame s s1 := .section (by rw [← hs1]) (by rw [← hs1])
          exact (b1.trans q3.bytes).trans (.eq rfl rfl)
  obtain ⟨s', e, h1, h2⟩ := key
  refine ⟨⟨s', e, ?_, h2⟩, ⟨s', e, ?_, h2⟩⟩
  · simp only [Win.ringNew, Win.sizeAlloc, Win.systemInfo, bind, Except.bind, hl, h1]; rfl
  · simp only [Win.infNew, Win.sizeAlloc, Win.systemInfo, bind, Except.bind, hl, h1]; rfl

/-- C140: in debug builds such a ring makes the constructors panic on Windows and macOS (`2 * len`
overflows), before any system call. -/
theorem C140_debug (t : Target) (debug : t.checks = true) {hint len : Nat} (big : t.lim ≤ 2 * len) :
    (∀ s : Win, WinWf t s → hint + s.gran < t.lim → IsRoundUp s.gran hint len →
      s.ringNew t hint = .error .panic ∧ s.infNew t hint = .error .panic) ∧
    (∀ s : Mach, MachLaid t s → hint + s.page < t.lim → IsRoundUp s.page hint len →
      s.ringNew t hint = .error .panic ∧ s.infNew t hint = .error .panic) := by
  constructor
  · intro s wf hh hr
    obtain ⟨hl, hlt⟩ := round_of (by obtain ⟨a, b, -, h1, -, h2⟩ := wf.sizes; exact ⟨b, h1, by omega⟩) hh hr
    have hm := mulU_over hlt big
    rw [debug, if_pos rfl] at hm
    constructor <;> simp only [Win.ringNew, Win.infNew, Win.sizeAlloc, Win.systemInfo, Win.mapRing, hl, hm, bind, Except.bind]
  · intro s wf hh hr
    obtain ⟨hl, hlt⟩ := round_of (by obtain ⟨a, h1, h2⟩ := wf.page; exact ⟨a, h1, by omega⟩) hh hr
    have hm := mulU_over hlt big
    rw [debug, if_pos rfl] at hm
    constructor <;> simp only [Mach.ringNew, Mach.infNew, Mach.mapRing, hl, hm, bind, Except.bind]

/-- C140 on macOS, release builds, if the system has no room for half of the ring (the second call is
refused; on a 64-bit system it always is, since no process has half of the 64-bit addresses):
such a ring is refused, no page changes and no port right is left behind.  (Missing: debug builds, which
panic; systems where half of the ring can be placed, `C140_macos_destroys`.) -/
theorem C140_macos_partial (t : Target) {s : Mach} (wf : MachWf s) (laid : MachLaid t s) {hint len : Nat}
    (hh : hint + s.page < t.lim) (hr : IsRoundUp s.page hint len) (big : t.lim ≤ 2 * len)
    (release : t.checks = false) (noRoom : (s.oracle (s.tick + 1)).ok = false) :
    (∃ s' e, s.ringNew t hint = .ok (s', .error e) ∧ s'.pt = s.pt ∧ s'.ports = s.ports) ∧
    (∃ s' e, s.infNew t hint = .ok (s', .error e) ∧ s'.pt = s.pt ∧ s'.ports = s.ports) := by
  obtain ⟨hl, hlt⟩ := round_of (by obtain ⟨a, h1, h2⟩ := laid.page; exact ⟨a, h1, by omega⟩) hh hr
  have hp := wf.page
  have key : ∃ s' e, s.mapRing t len = .ok (s', .error e) ∧ s'.pt = s.pt ∧ s'.ports = s.ports := by
    have hm := mulU_over hlt big
    rw [release] at hm
    simp only [Mach.mapRing, hm, bind, Except.bind, Bool.false_eq_true, if_false, Mach.vmAllocateAnywhere]
    generalize hfull : 2 * len - t.lim = full
    by_cases h1 : (s.oracle s.tick).ok = true ∧ (s.oracle s.tick).page ≠ 0 ∧
      ((s.oracle s.tick).page + s.pages full) * s.page < t.lim ∧
      s.rangeFree (s.oracle s.tick).page (s.pages full) = true
    · rw [if_pos h1]
      obtain ⟨-, -, hfit, hfree⟩ := h1
      have hfree := s.rangeFree_iff _ _ hfree
      generalize hP : (s.oracle s.tick).page = P at hfit hfree ⊢
      simp only [Mach.vmAllocateFixed, Mach.mapRange, Mach.tock, noRoom, Bool.false_eq_true, false_and, if_false]
      have hsum : P * s.page + full < t.lim := by
        have h3 : full ≤ s.pages full * s.page := (isRoundUp_div (len := full) hp).2.1
        rw [Nat.add_mul] at hfit
        omega
      simp only [Mach.vmDeallocate, if_pos hsum, Nat.mul_div_cancel _ hp]
      refine ⟨_, _, rfl, ?_, rfl⟩
      funext q
      show (if P ≤ q ∧ q < P + s.pages full then none
        else if P ≤ q ∧ q < P + s.pages full then some _ else s.pt q) = s.pt q
      by_cases hq : P ≤ q ∧ q < P + s.pages full
      · rw [if_pos hq]
        have := hfree (q - P) (by omega)
        rw [show P + (q - P) = q by omega] at this
        exact this.symm
      · rw [if_neg hq, if_neg hq]
    · rw [if_neg h1]
      exact ⟨_, _, rfl, rfl, rfl⟩
  obtain ⟨s', e, h1, h2⟩ := key
  refine ⟨⟨s', e, ?_, h2⟩, ⟨s', e, ?_, h2⟩⟩
  · simp only [Mach.ringNew, bind, Except.bind, hl, h1]; rfl
  · simp only [Mach.infNew, bind, Except.bind, hl, h1]; rfl

/-- C140 on macOS, release builds: if the system does place half of the ring (which is the second call),
the constructor returns an error, and every page from `addr + (2*len - lim)` to `addr + len` — whatever
was there: code, stack, other maps — now shows a page of the new, zero-filled memory, where `addr` is
where the system placed the (much too small) allocation of the first call. -/
theorem C140_macos_destroys (t : Target) {s : Mach} (wf : MachWf s) (laid : MachLaid t s)
    {hint n l P : Nat} (hh : hint + s.page < t.lim) (hr : IsRoundUp s.page hint (n * s.page))
    (hlim : t.lim = l * s.page) (big : l ≤ 2 * n) (release : t.checks = false)
    (first : (s.oracle s.tick).ok = true) (place : (s.oracle s.tick).page = P) (bottom : P ≠ 0)
    (free : ∀ q, P ≤ q → q < P + (2 * n - l) → s.pt q = none) (second : (s.oracle (s.tick + 1)).ok = true)
    (top : P + n < l) :
    ∃ s' e, s.ringNew t hint = .ok (s', .error e) ∧
      ∀ i, 2 * n - l ≤ i → i < n → s'.pt (P + i) = some (s.fresh + 1, i) := by
  have hp := wf.page
  have hbig : t.lim ≤ 2 * (n * s.page) := by
    rw [hlim, ← Nat.mul_assoc]; exact Nat.mul_le_mul_right _ big
  obtain ⟨hl, hlt⟩ := round_of (by obtain ⟨a, h1, h2⟩ := laid.page; exact ⟨a, h1, by omega⟩) hh hr
  have hm := mulU_over hlt hbig
  have hfull : 2 * (n * s.page) - t.lim = (2 * n - l) * s.page := by
    rw [hlim, ← Nat.mul_assoc, Nat.sub_mul]
  rw [release, hfull] at hm
  have hm : mulU t 2 (n * s.page) = .ok ((2 * n - l) * s.page) := hm
  have hpg : ∀ s' : Mach, s'.page = s.page → ∀ x, s'.pages (x * s.page) = x := by
    intro s' h x; rw [← h]; exact Mach.pages_mul (by rw [h]; exact hp) x
  have hrf : ∀ c p, (∀ q, p ≤ q → q < p + c → s.pt q = none) → s.rangeFree p c = true := by
    intro c
    induction c with
    | zero => intro p _; rfl
    | succ c ih =>
      intro p h
      rw [Mach.rangeFree, h p (Nat.le_refl _) (by omega), ih (p + 1) (fun q a b => h q (by omega) (by omega))]
      rfl
  have c1 : (s.oracle s.tick).ok = true ∧ P ≠ 0 ∧ (P + (2 * n - l)) * s.page < t.lim ∧
      s.rangeFree P (2 * n - l) = true := by
    refine ⟨first, bottom, ?_, hrf _ _ free⟩
    rw [hlim]; exact Nat.mul_lt_mul_of_pos_right (by omega) hp
  have hn : n < l := by omega
  have c2 : P * s.page + n * s.page < t.lim := by
    rw [← Nat.add_mul, hlim]; exact Nat.mul_lt_mul_of_pos_right top hp
  have c3 : P * s.page + (2 * n - l) * s.page < t.lim := by
    rw [← Nat.add_mul, hlim]; exact Nat.mul_lt_mul_of_pos_right (by omega) hp
  have c4 : ¬ ((P + n) * s.page + n * s.page < t.lim) := by
    rw [← Nat.add_mul, hlim, Nat.not_lt]; exact Nat.mul_le_mul_right _ (by omega)
  have hadd : addU t (P * s.page) (n * s.page) = .ok ((P + n) * s.page) := by
    rw [addU, addL, if_pos c2, Nat.add_mul]
  -- the state after the second call, and what giving the first allocation back leaves of it
  have back : ∀ s' : Mach, s'.page = s.page →
      (∀ i, 2 * n - l ≤ i → i < n → s'.pt (P + i) = some (s.fresh + 1, i)) →
      ∀ i, 2 * n - l ≤ i → i < n →
        (s'.vmDeallocate t (P * s.page) ((2 * n - l) * s.page)).1.pt (P + i) = some (s.fresh + 1, i) := by
    intro s' h hq i h1 h2
    rw [Mach.vmDeallocate, if_pos c3]
    simp only [h, hpg s' h, Nat.mul_div_cancel _ hp]
    rw [if_neg (by omega)]
    exact hq i h1 h2
  have key : ∃ s' e, s.mapRing t (n * s.page) = .ok (s', .error e) ∧
      ∀ i, 2 * n - l ≤ i → i < n → s'.pt (P + i) = some (s.fresh + 1, i) := by
    simp only [Mach.mapRing, hm, bind, Except.bind, Mach.vmAllocateAnywhere, hpg s rfl, place, if_pos c1]
    generalize hs1 : ({ (s.tock.mapRange P (2 * n - l) s.fresh 0 true) with fresh := s.fresh + 1 } : Mach) = s1
    have a1 : s1.page = s.page := by rw [← hs1]; rfl
    have a2 : s1.oracle s1.tick = s.oracle (s.tick + 1) := by rw [← hs1]; rfl
    have a3 : s1.fresh = s.fresh + 1 := by rw [← hs1]
    simp only [Mach.vmAllocateFixed, a1, a2, second, Nat.mul_mod_left, hpg s1 a1, Nat.mul_div_cancel _ hp, c2,
      and_self, if_true]
    generalize hs2 : ({ (s1.tock.mapRange P n s1.fresh 0 true) with fresh := s1.fresh + 1 } : Mach) = s2
    have b1 : s2.page = s.page := by rw [← hs2, ← a1]; rfl
    have b2 : ∀ i, i < n → s2.pt (P + i) = some (s.fresh + 1, i) := by
      intro i hi
      rw [← hs2]
      show (if P ≤ P + i ∧ P + i < P + n then some (s1.fresh, 0 + (P + i - P)) else _) = _
      rw [if_pos (by omega), a3]
      congr 2
      omega
    have hn0 : 0 < n := by omega
    have b3 := b2 0 hn0
    rw [Nat.add_zero] at b3
    have hne : n * s.page ≠ 0 := Nat.ne_of_gt (Nat.mul_pos hn0 hp)
    simp only [Mach.makeMemoryEntry, b1, Nat.mul_div_cancel _ hp, b3, hpg s2 b1, ne_eq, hne,
      not_false_eq_true, and_true]
    by_cases h3 : (s2.oracle s2.tick).ok = true
    · rw [if_pos h3]
      simp only [hadd, Mach.vmMap, if_true, b1, Mach.tock, hm, c4, and_false, if_false]
      exact ⟨_, _, rfl, back _ rfl (fun i _ h => b2 i h)⟩
    · rw [if_neg h3]
      exact ⟨_, _, rfl, back s2.tock b1 (fun i _ h => b2 i h)⟩
  obtain ⟨s', e, h1, h2⟩ := key
  refine ⟨s', e, ?_, h2⟩
  simp only [Mach.ringNew, bind, Except.bind, hl, h1]; rfl

/-- A 32-bit task that has something at page 2000; the system places things from page 1000 on. -/
def machFull : Mach :=
  ⟨4096, fun q => if q = 2000 then some (0, 0) else none, fun _ => none, 1, 1, 0, fun _ => ⟨true, 0, 1000⟩,
    fun _ => true⟩

theorem machFull_wf : MachWf machFull ∧ MachLaid ⟨.w32, false⟩ machFull := by
  refine ⟨⟨by decide, ?_, fun _ _ => rfl, fun _ _ h => (by cases h)⟩, ⟨⟨12, rfl, by decide⟩, ?_⟩⟩
  · intro q e h
    have h : (if q = 2000 then some (0, 0) else none) = some e := h
    split at h
    · injection h with h; rw [← h]; decide
    · cases h
  · intro q i j h
    have h : (if q = 2000 then some (0, 0) else none) = some (i, j) := h
    split at h
    · injection h with h; injection h with h1 h2; subst h1 h2
      rename_i hq
      subst hq
      decide
    · cases h

/-- 2 GiB and one page on a 32-bit system: the page at 2000 is overwritten. -/
theorem machFull_gone : ∃ s' e, machFull.ringNew ⟨.w32, false⟩ (524289 * 4096) = .ok (s', .error e) ∧
    machFull.pt 2000 = some (0, 0) ∧ s'.pt 2000 = some (2, 1000) := by
  obtain ⟨s', e, h1, h2⟩ := C140_macos_destroys ⟨.w32, false⟩ machFull_wf.1 machFull_wf.2
    (hint := 524289 * 4096) (n := 524289) (l := 1048576) (P := 1000) (by decide)
    ⟨Nat.dvd_mul_left _ _, Nat.le_refl _, fun m _ h => h⟩ rfl (by decide) rfl rfl rfl (by decide)
    (fun q h1 h2 => if_neg (by omega)) rfl (by decide)
  exact ⟨s', e, h1, rfl, h2 1000 (by decide) (by decide)⟩

theorem C140_false : ¬ C140_full := by
  rintro ⟨-, -, h⟩
  obtain ⟨s1, e1, h1, h2, h3⟩ := machFull_gone
  obtain ⟨s2, e2, g1, g2, -⟩ := h ⟨.w32, false⟩ machFull (524289 * 4096) (524289 * 4096) machFull_wf.1
    machFull_wf.2 (by decide) ⟨Nat.dvd_mul_left _ _, Nat.le_refl _, fun m _ h => h⟩ (by decide)
  rw [h1] at g1
  injection g1 with g1
  injection g1 with g1 _
  rw [g1, g2, h2] at h3
  exact absurd h3 (by decide)

-- Windows and a release build; macOS with a kernel that refuses the second call
example : WinWf ⟨.w64, false⟩ (winDemo []) ∧ 2 ^ 63 + (winDemo []).gran < (⟨.w64, false⟩ : Target).lim ∧
    IsRoundUp (winDemo []).gran (2 ^ 63) (2 ^ 63) ∧ (⟨.w64, false⟩ : Target).lim ≤ 2 * 2 ^ 63 :=
  ⟨⟨⟨12, 16, rfl, rfl, by decide, by decide⟩, fun _ h => (nomatch h), fun _ h => (nomatch h), fun _ _ h => (nomatch h)⟩,
    by decide, ⟨by decide, Nat.le_refl _, fun _ _ h => h⟩, by decide⟩

example : ∃ s : Mach, MachWf s ∧ MachLaid ⟨.w64, false⟩ s ∧ (s.oracle (s.tick + 1)).ok = false ∧
    2 ^ 63 + s.page < (⟨.w64, false⟩ : Target).lim ∧ IsRoundUp s.page (2 ^ 63) (2 ^ 63) :=
  ⟨{ machDemo with oracle := fun n => ⟨n == 0, 0, 1000⟩ },
    ⟨by decide, fun _ _ h => (by cases h), fun _ _ => rfl, fun _ _ h => (by cases h)⟩,
    ⟨⟨12, rfl, by decide⟩, fun _ _ _ h => (nomatch h)⟩, by decide, by decide,
    ⟨by decide, Nat.le_refl _, fun _ _ h => h⟩⟩

/-- Non-vacuity: half of the address space, on Unix. -/
example : Wf ⟨.w64, true⟩ (demo 0) ∧ IsRoundUp 4096 (2 ^ 63) (2 ^ 63) ∧
    (⟨.w64, true⟩ : Target).lim ≤ 2 * 2 ^ 63 ∧ 2 ^ 63 + (demo 0).page < (⟨.w64, true⟩ : Target).lim :=
  ⟨demo_wf 0, ⟨by decide, Nat.le_refl _, fun _ _ h => h⟩, by decide, by decide⟩

end Vmap
