import Verif.Model.Ring
import Verif.Proofs.RingMap
import Verif.Spec.Demo
/-
Property theorems C15, C25, C26, C28: creating circular mappings
(`Ring::new`, `InfiniteRing::new` over posix `map_ring`).
-/
namespace Vmap
open Spec Kernel

/-- All outcomes of rounding up to a power of two. -/
theorem round_cases {t : Target} {u : Nat} (h : ∃ s, u = 2 ^ s ∧ s + 2 ≤ t.width.bits) {hint len : Nat}
    (hh : hint < t.lim) (hlen : (Size.withSize u).round t hint = .ok len) :
    (len = 0 ∨ IsRoundUp u hint len) ∧ u ∣ len ∧ len < t.lim := by
  obtain ⟨s, hs, hs2⟩ := h
  have hu := Nat.two_pow_pos s
  rw [hs] at hlen ⊢
  by_cases h1 : hint + 2 ^ s < t.lim
  · rw [round_eq (by omega) h1] at hlen
    injection hlen with hlen
    have := isRoundUp_div (len := hint) hu
    rw [hlen] at this
    refine ⟨.inr this, this.1, ?_⟩
    have := Nat.div_mul_le_self (hint + 2 ^ s - 1) (2 ^ s)
    omega
  · cases hc : t.checks with
    | true => rw [round_panic h1 hc] at hlen; cases hlen
    | false =>
      by_cases h2 : hint + 2 ^ s = t.lim
      · rw [round_edge (by omega) h2 hc] at hlen
        injection hlen with hlen
        have hd := isRoundDown_div (u := 2 ^ s) (len := t.lim - 1) hu
        rw [hlen] at hd
        have hdl : 2 ^ s ∣ t.lim := Nat.pow_dvd_pow 2 (by omega)
        have hdh : 2 ^ s ∣ hint := by
          have := Nat.dvd_sub hdl (Nat.dvd_refl (2 ^ s))
          rwa [show t.lim - 2 ^ s = hint by omega] at this
        have h3 := hd.2.2 hint hdh (by omega)
        have hlt := hd.2.1
        refine ⟨.inr ⟨hd.1, h3, ?_⟩, hd.1, by omega⟩
        intro m hm hle
        have : len ≤ hint := by
          have hlt := hd.2.1
          have hdd : 2 ^ s ∣ t.lim - len := Nat.dvd_sub hdl hd.1
          have := Nat.le_of_dvd (by omega) hdd
          omega
        omega
      · rw [round_wrap (by omega) hh (by omega) hc] at hlen
        injection hlen with hlen
        exact ⟨.inl hlen.symm, hlen ▸ Nat.dvd_zero _, by omega⟩

/-- All outcomes of `Size::alloc().round(hint)` followed by `map_ring`, the common body of
both constructors. -/
theorem newRing_cases {t : Target} {k : Kernel} (h : Wf t k) {hint len : Nat}
    (hh : hint < t.lim) (hlen : (Size.withSize k.page).round t hint = .ok len) :
    (len = 0 ∨ IsRoundUp k.page hint len) ∧ k.page ∣ len :=
  ⟨(round_cases h.page hh hlen).1, (round_cases h.page hh hlen).2.1⟩

/-- What both constructors establish when they return `Ok`; `Made` is the statement of C15
and C25 together. -/
structure Made (t : Target) (k k' : Kernel) (hint ptr len : Nat) : Prop where
  /-- C15: the capacity is the least multiple of the allocation granularity ≥ hint -/
  capacity : IsRoundUp k.page hint len
  /-- C15: all memory is zero -/
  zero : k'.loadN ptr (2 * len) = .ok (List.replicate (2 * len) 0)
  /-- C25: circular mapping of one object, which no old mapping or descriptor refers to -/
  mirror : ∃ o, Mirror t k' ptr len o ∧ k.fresh ≤ o ∧ o < k'.fresh
  /-- C25: the addresses were free before -/
  free : ∀ q, ptr ≤ q * k.page → q * k.page < ptr + 2 * len → k.pt q = none
  /-- C25: every other page is mapped as before -/
  others : ∀ q, ¬ (ptr ≤ q * k.page ∧ q * k.page < ptr + 2 * len) → k'.pt q = k.pt q
  /-- no descriptor stays open -/
  fds : k'.fds = k.fds
  /-- old objects are untouched -/
  keeps : KeepsObjects k k'
  /-- the kernel stays consistent -/
  wf : Wf t k'

theorem made_of_ringPt {t : Target} {k k1 : Kernel} (h : Wf t k) {hint len p n : Nat} {o : Obj}
    (hcap : len = 0 ∨ IsRoundUp k.page hint len) (w : Wf t k1) (kp : KeepsObjects k k1)
    (fd : k1.fds = k.fds) (hn : len = n * k.page) (hn0 : 0 < n)
    (hfit : (p + 2 * n) * k.page ≤ t.lim) (hfree : ∀ q, p ≤ q → q < p + 2 * n → k.pt q = none)
    (hpt : k1.pt = Posix.ringPt k.pt p n o) (hlo : k.fresh ≤ o) (hfr : o < k1.fresh)
    (hsz : k1.size o = len) (hz : ∀ i, k1.data o i = 0) : Made t k k1 hint (p * k.page) len := by
  have hpp := h.page_pos
  have hm : Mirror t k1 (p * k.page) len o := by
    have := Posix.mirror_of_ringPt (t := t) (k' := k1) (p := p) (n := n) (len := len)
      (o := o) (by rw [kp.page]; exact hpp) hn0 (by rw [kp.page]; exact hn)
      (by rw [kp.page]; exact hfit) hpt hsz
    rwa [kp.page] at this
  have hrange : ∀ q, (p * k.page ≤ q * k.page ∧ q * k.page < p * k.page + 2 * len) ↔
      (p ≤ q ∧ q < p + 2 * n) := by
    intro q
    rw [hn, ← Nat.mul_assoc, ← Nat.add_mul]
    constructor
    · rintro ⟨a, b⟩
      exact ⟨Nat.le_of_mul_le_mul_right a hpp, Nat.lt_of_mul_lt_mul_right b⟩
    · rintro ⟨a, b⟩
      exact ⟨Nat.mul_le_mul_right _ a, Nat.mul_lt_mul_of_pos_right b hpp⟩
  refine ⟨?_, ?_, ⟨o, hm, hlo, hfr⟩, ?_, ?_, fd, kp, w⟩
  · rcases hcap with h0 | h0
    · have := hm.len_pos; omega
    · exact h0
  · rw [loadN_shows (o := o) (fun i => i % len) (2 * len) (p * k.page) hm.shows']
    congr 1
    rw [List.eq_replicate_iff]
    refine ⟨by simp, ?_⟩
    intro b hb
    rw [List.mem_map] at hb
    obtain ⟨i, -, hi⟩ := hb
    rw [← hi]; exact hz _
  · intro q h1 h2
    have := (hrange q).mp ⟨h1, h2⟩
    exact hfree q this.1 this.2
  · intro q hq
    rw [hrange] at hq
    rw [hpt]
    exact if_neg hq

theorem made_of_mapRing {t : Target} {k k' : Kernel} (h : Wf t k) {hint len ptr : Nat}
    (hh : hint < t.lim) (hlen : (Size.withSize k.page).round t hint = .ok len)
    (hm : Posix.mapRing t k len = .ok (k', .ok ptr)) : Made t k k' hint ptr len := by
  obtain ⟨hcap, hdvd⟩ := newRing_cases h hh hlen
  rcases Posix.mapRing_cases h hdvd with
    ⟨k1, err, l, he, -⟩ | ⟨k1, p, n, he, w, kp, fd, hn, hn0, hp0, hfit, hfree, hpt, hfr, hsz, hz⟩
  · rw [he] at hm; injection hm with hm; injection hm with _ hm; cases hm
  · rw [he] at hm
    injection hm with hm
    injection hm with hm1 hm2
    injection hm2 with hm2
    subst hm1 hm2
    exact made_of_ringPt h hcap w kp fd hn hn0 hfit hfree hpt (Nat.le_refl _) hfr hsz hz

/-! ### C15, C25 -/

/-- C15, C25 for `Ring::new`: on every kernel, for every hint and every outcome of the system
calls, a returned ring is empty and satisfies `Made`. -/
theorem C15_C25_ring_new (t : Target) (k k' : Kernel) (h : Wf t k) (hint : Nat)
    (hh : hint < t.lim) (r : Ring) (hr : Ring.new t k hint = .ok (k', .ok r)) :
    Made t k k' hint r.ptr r.len ∧ r.readLen t = .ok 0 ∧ r.writeLen t = .ok r.len := by
  simp only [Ring.new, Unix.systemInfo, bind, Except.bind] at hr
  cases hl : (Size.withSize k.page).round t hint with
  | error e => rw [hl] at hr; cases hr
  | ok len =>
    rw [hl] at hr
    simp only at hr
    cases hm : Posix.mapRing t k len with
    | error e => rw [hm] at hr; cases hr
    | ok kr =>
      obtain ⟨k1, res⟩ := kr
      rw [hm] at hr
      cases res with
      | error e =>
        simp only [pure, Except.pure] at hr
        injection hr with hr; injection hr with _ hr; cases hr
      | ok ptr =>
        simp only [pure, Except.pure] at hr
        injection hr with hr
        injection hr with hr1 hr2
        injection hr2 with hr2
        subst hr1 hr2
        refine ⟨made_of_mapRing h hh hl hm, ?_, ?_⟩
        · simp [Ring.readLen, sub64, subL, bind, Except.bind, pure, Except.pure, asUsize]
        · simp [Ring.writeLen, Ring.readLen, sub64, subL, bind, Except.bind, pure, Except.pure,
            asUsize, subU]

/-- C15, C25 for `InfiniteRing::new`. -/
theorem C15_C25_infinite_new (t : Target) (k k' : Kernel) (h : Wf t k) (hint : Nat)
    (hh : hint < t.lim) (r : InfiniteRing)
    (hr : InfiniteRing.new t k hint = .ok (k', .ok r)) :
    Made t k k' hint r.ptr r.len ∧ r.readLen t = .ok 0 ∧ r.writeLen t = .ok r.len := by
  simp only [InfiniteRing.new, Unix.systemInfo, bind, Except.bind] at hr
  cases hl : (Size.withSize k.page).round t hint with
  | error e => rw [hl] at hr; cases hr
  | ok len =>
    rw [hl] at hr
    simp only at hr
    cases hm : Posix.mapRing t k len with
    | error e => rw [hm] at hr; cases hr
    | ok kr =>
      obtain ⟨k1, res⟩ := kr
      rw [hm] at hr
      cases res with
      | error e =>
        simp only [pure, Except.pure] at hr
        injection hr with hr; injection hr with _ hr; cases hr
      | ok ptr =>
        simp only [pure, Except.pure] at hr
        injection hr with hr
        injection hr with hr1 hr2
        injection hr2 with hr2
        subst hr1 hr2
        exact ⟨made_of_mapRing h hh hl hm, by simp [InfiniteRing.readLen, asUsize], rfl⟩

example : Wf ⟨.w64, true⟩ (demo 0) ∧ ∃ k' r,
    Ring.new ⟨.w64, true⟩ (demo 0) 5000 = .ok (k', .ok r) ∧ r.len = 8192 :=
  ⟨demo_wf _, _, _, rfl, rfl⟩
example : ∃ k' r, InfiniteRing.new ⟨.w32, false⟩ (demo 0) 4096 = .ok (k', .ok r) ∧ r.len = 4096 :=
  ⟨_, _, rfl, rfl⟩

/-- C25, observably: in a circular mapping, storing through either alias of a byte has the same
effect, and what is stored through one alias is loaded through the other. -/
theorem C25_aliases (t : Target) (k : Kernel) (ptr len : Nat) (o : Obj)
    (h : Mirror t k ptr len o) (i : Nat) (hi : i < len) (b : Byte) :
    ∃ k', k.store (ptr + i) b = .ok k' ∧ k.store (ptr + len + i) b = .ok k' ∧
      k'.load (ptr + i) = .ok b ∧ k'.load (ptr + len + i) = .ok b := by
  have h1 := h.shows' i (by omega)
  have h2 := h.shows' (len + i) (by omega)
  rw [Nat.mod_eq_of_lt hi] at h1
  rw [Nat.add_mod_left, Nat.mod_eq_of_lt hi, ← Nat.add_assoc] at h2
  have s := SameButData.setByte k o i b
  refine ⟨k.setByte o i b, h1.store b, h2.store b, ?_, ?_⟩
  · rw [(h1.mono s).load]; simp [setByte]
  · rw [(h2.mono s).load]; simp [setByte]

/-- C15 (hint 0): `Ring::new(0)` returns an error, on every kernel. -/
theorem C15_ring_hint_zero (t : Target) (k : Kernel) (h : Wf t k) :
    ∃ k' e, Ring.new t k 0 = .ok (k', .error e) := by
  obtain ⟨s, hs, hs2⟩ := h.page
  have hlt : 2 ^ s < t.lim := pow_lt_lim (by omega)
  have hu := Nat.two_pow_pos s
  have hl : (Size.withSize k.page).round t 0 = .ok 0 := by
    rw [hs, round_eq (by omega) (by omega), Nat.div_eq_of_lt (by omega), Nat.zero_mul]
  rcases Posix.mapRing_cases h (len := 0) (Nat.dvd_zero _) with
    ⟨k1, err, l, he, -⟩ | ⟨k1, p, n, he, -, -, -, hn, hn0, -⟩
  · refine ⟨k1, err, ?_⟩
    simp only [Ring.new, Unix.systemInfo, bind, Except.bind, hl, he]; rfl
  · have := Nat.mul_pos hn0 h.page_pos; omega

/-- C15 (hint 0) for `InfiniteRing::new`. -/
theorem C15_infinite_hint_zero (t : Target) (k : Kernel) (h : Wf t k) :
    ∃ k' e, InfiniteRing.new t k 0 = .ok (k', .error e) := by
  obtain ⟨k', e, he⟩ := C15_ring_hint_zero t k h
  refine ⟨k', e, ?_⟩
  simp only [Ring.new, InfiniteRing.new, bind, Except.bind] at he ⊢
  cases hl : (Size.withSize (Unix.systemInfo k).2).round t 0 with
  | error e => rw [hl] at he; cases he
  | ok len =>
    rw [hl] at he
    simp only at he ⊢
    cases hm : Posix.mapRing t k len with
    | error e => rw [hm] at he; cases he
    | ok kr =>
      obtain ⟨k1, res⟩ := kr
      rw [hm] at he
      cases res with
      | ok p =>
        simp only [pure, Except.pure] at he
        injection he with he; injection he with _ he; cases he
      | error e' =>
        simp only [pure, Except.pure] at he ⊢
        injection he with he; injection he with he1 he2
        injection he2 with he2
        rw [he1, he2]

/-! ### C26, C28 -/

theorem failed_mapRing {t : Target} {k k' : Kernel} (h : Wf t k) {hint len : Nat}
    (hh : hint < t.lim) {err : Error} (hlen : (Size.withSize k.page).round t hint = .ok len)
    (hm : Posix.mapRing t k len = .ok (k', .error err)) :
    SameWorld k k' ∧ Wf t k' ∧ ∃ l, k'.log = l ++ k.log ∧ RingTrace len l err := by
  obtain ⟨-, hdvd⟩ := newRing_cases h hh hlen
  rcases Posix.mapRing_cases h hdvd with ⟨k1, err', l, he, a1, a2, a3, a4⟩ | ⟨k1, p, n, he, -⟩
  · rw [he] at hm
    injection hm with hm
    injection hm with hm1 hm2
    injection hm2 with hm2
    subst hm1 hm2
    exact ⟨a1, a2, l, a3, a4⟩
  · rw [he] at hm; injection hm with hm; injection hm with _ hm; cases hm

/-- C26 and C28 for `Ring::new`: whatever system call fails, every mapping, descriptor, name and
object is as before, and the error names the failing step and carries its errno. -/
theorem C26_C28_ring_new_fails (t : Target) (k k' : Kernel) (h : Wf t k) (hint : Nat)
    (hh : hint < t.lim) (err : Error) (hr : Ring.new t k hint = .ok (k', .error err)) :
    SameWorld k k' ∧ Wf t k' ∧
    ∃ len l, (Size.withSize k.page).round t hint = .ok len ∧
      k'.log = l ++ k.log ∧ RingTrace len l err := by
  simp only [Ring.new, Unix.systemInfo, bind, Except.bind] at hr
  cases hl : (Size.withSize k.page).round t hint with
  | error e => rw [hl] at hr; cases hr
  | ok len =>
    rw [hl] at hr
    simp only at hr
    cases hm : Posix.mapRing t k len with
    | error e => rw [hm] at hr; cases hr
    | ok kr =>
      obtain ⟨k1, res⟩ := kr
      rw [hm] at hr
      cases res with
      | ok ptr =>
        simp only [pure, Except.pure] at hr
        injection hr with hr; injection hr with _ hr; cases hr
      | error e =>
        simp only [pure, Except.pure] at hr
        injection hr with hr
        injection hr with hr1 hr2
        injection hr2 with hr2
        subst hr1 hr2
        obtain ⟨a, b, l, c, d⟩ := failed_mapRing h hh hl hm
        exact ⟨a, b, len, l, rfl, c, d⟩

-- the fifth system call (mapping the second half) fails with errno 12, clobbering
example : Wf ⟨.w64, true⟩ (demo 16) ∧ ∃ k' e,
    Ring.new ⟨.w64, true⟩ (demo 16) 5000 = .ok (k', .error e) ∧
      e.op = .ringSecondary ∧ e.rawOsError = some 12 :=
  ⟨demo_wf _, _, _, rfl, rfl, rfl⟩

/-- C26 and C28 for `InfiniteRing::new`. -/
theorem C26_C28_infinite_new_fails (t : Target) (k k' : Kernel) (h : Wf t k) (hint : Nat)
    (hh : hint < t.lim) (err : Error) (hr : InfiniteRing.new t k hint = .ok (k', .error err)) :
    SameWorld k k' ∧ Wf t k' ∧
    ∃ len l, (Size.withSize k.page).round t hint = .ok len ∧
      k'.log = l ++ k.log ∧ RingTrace len l err := by
  apply C26_C28_ring_new_fails t k k' h hint hh err
  simp only [Ring.new, InfiniteRing.new, bind, Except.bind] at hr ⊢
  cases hl : (Size.withSize (Unix.systemInfo k).2).round t hint with
  | error e => rw [hl] at hr; cases hr
  | ok len =>
    rw [hl] at hr
    simp only at hr ⊢
    cases hm : Posix.mapRing t k len with
    | error e => rw [hm] at hr; cases hr
    | ok kr =>
      obtain ⟨k1, res⟩ := kr
      rw [hm] at hr
      cases res with
      | ok p =>
        simp only [pure, Except.pure] at hr
        injection hr with hr; injection hr with _ hr; cases hr
      | error e' =>
        simp only [pure, Except.pure] at hr ⊢
        injection hr with hr; injection hr with hr1 hr2
        injection hr2 with hr2
        rw [hr1, hr2]

/-- Creating a ring never panics: only a hint within one allocation unit of `usize::MAX` does,
and only in debug builds. -/
theorem C26_ring_new_no_panic (t : Target) (k : Kernel) (h : Wf t k) (hint : Nat)
    (hh : hint + k.page < t.lim) : ∃ k' res, Ring.new t k hint = .ok (k', res) := by
  obtain ⟨s, hs, hs2⟩ := h.page
  have hl : (Size.withSize k.page).round t hint =
      .ok ((hint + 2 ^ s - 1) / 2 ^ s * 2 ^ s) := by
    rw [hs]; exact round_eq (by omega) (by rw [← hs]; exact hh)
  rcases Posix.mapRing_cases h (len := (hint + 2 ^ s - 1) / 2 ^ s * 2 ^ s)
      (by rw [hs]; exact Nat.dvd_mul_left _ _) with
    ⟨k1, err, l, he, -⟩ | ⟨k1, p, n, he, -⟩
  · exact ⟨k1, .error err, by
      simp only [Ring.new, Unix.systemInfo, bind, Except.bind, hl, he]; rfl⟩
  · exact ⟨k1, .ok ⟨p * k.page, _, 0, 0⟩, by
      simp only [Ring.new, Unix.systemInfo, bind, Except.bind, hl, he]; rfl⟩

end Vmap
