import Verif.Proofs.MachShort
/-
Property theorems C150: rings on macOS when the memory entry covers less than was asked for.
-/
namespace Vmap
open Spec

/-- C150 in full: whatever part of the first half the kernel's memory entry covers, creating a ring
either succeeds with a circular mapping of the asked length, or fails and leaves no page behind. -/
def C150_full : Prop :=
  ∀ (cover : Nat) (t : Target) (s s' : Mach) (n : Nat) (r : Result Nat), MachWf s → 0 < n →
    2 * (n * s.page) < t.lim → s.mapRingUpTo cover t (n * s.page) = .ok (s', r) →
    (∀ addr, r = .ok addr → MachRing t s s' addr n) ∧ (∀ e, r = .error e → s'.pt = s.pt)

/-- C150: if the entry covers the whole length, creation is that of Model/Mach.lean, for which C30, C92,
C135 hold. -/
theorem C150_whole (cover : Nat) (t : Target) (s : Mach) (len : Nat) (whole : s.pages len ≤ cover + 1) :
    s.mapRingUpTo cover t len = s.mapRing t len := by
  have pgs : ∀ s' : Mach, s'.page = s.page → ∀ x, s'.pages x = s.pages x := by
    intro s' h x; simp only [Mach.pages, h]
  have entry : ∀ (s' : Mach) addr, s'.page = s.page →
      s'.makeMemoryEntryUpTo cover len addr = s'.makeMemoryEntry len addr := by
    intro s' addr h
    simp only [Mach.makeMemoryEntryUpTo, Mach.makeMemoryEntry, pgs s' h, Nat.min_eq_left whole]
    rfl
  have p1 : ∀ full, (s.vmAllocateAnywhere t full).1.page = s.page := by
    intro full; simp only [Mach.vmAllocateAnywhere]; split <;> rfl
  have p2 : ∀ (s' : Mach) addr l, (s'.vmAllocateFixed t addr l).1.page = s'.page := by
    intro s' addr l; simp only [Mach.vmAllocateFixed]; split <;> rfl
  simp only [Mach.mapRingUpTo, Mach.mapRing]
  cases mulU t 2 len with
  | error => rfl
  | ok full =>
    simp only [bind, Except.bind]
    have h1 := p1 full
    cases hx : s.vmAllocateAnywhere t full with
    | mk s1 r1 =>
      rw [hx] at h1
      cases r1 with
      | error => rfl
      | ok addr =>
        simp only
        have h2 := p2 s1 addr len
        cases hy : s1.vmAllocateFixed t addr len with
        | mk s2 r2 =>
          rw [hy] at h2
          cases r2 with
          | error => rfl
          | ok _ =>
            simp only [entry s2 addr (h2.trans h1)]
            rfl

/-- C150 as far as it is true: the full statement for entries that cover the whole length.
(Missing: shorter entries, for which it is false, see `C150_short` and `C150_short_leaks`.) -/
theorem C150_partial (cover : Nat) (t : Target) {s s' : Mach} (w : MachWf s) {n : Nat} (hn : 0 < n)
    (hl : 2 * (n * s.page) < t.lim) (whole : n ≤ cover + 1) {r : Result Nat}
    (run : s.mapRingUpTo cover t (n * s.page) = .ok (s', r)) :
    (∀ addr, r = .ok addr → MachRing t s s' addr n) ∧ (∀ e, r = .error e → s'.pt = s.pt) := by
  rw [C150_whole cover t s _ (by rw [Mach.pages_mul w.page]; exact whole)] at run
  obtain ⟨s1, r1, e, h1, h2⟩ := C30_partial t w hn hl
  rw [run] at e
  injection e with e
  injection e with e1 e2
  subst e1 e2
  exact ⟨fun addr h => (h1 addr h).1, fun e h => (h2 e h).1⟩

/-- C150: whatever the entry covers, creation does not panic and changes no page that was in use before,
and dropping a ring it returned gives back every page. -/
theorem C150_bystanders (cover : Nat) (t : Target) {s : Mach} (w : MachWf s) {n : Nat} (hn : 0 < n)
    (hl : 2 * (n * s.page) < t.lim) :
    ∃ s' r, s.mapRingUpTo cover t (n * s.page) = .ok (s', r) ∧
      (∀ q e, s.pt q = some e → s'.pt q = some e) ∧
      ∀ addr, r = .ok addr →
        ∃ s2, s'.unmapRing t addr (n * s.page) = .ok (s2, .ok ()) ∧ s2.pt = s.pt := by
  have hp := w.page
  obtain ⟨s', r, e, hpg, h⟩ := mapRingUpTo_cases t w hn hl cover
  refine ⟨s', r, e, ?_⟩
  rcases h with ⟨x, hr, -, hpt⟩ | ⟨P, o, o', -, hfit, hfree, -, -, -, ⟨hr, hpt⟩ | ⟨⟨x, hr⟩, hpt⟩⟩
  · exact ⟨fun q e hq => by rw [hpt]; exact hq, fun addr ha => by rw [hr] at ha; cases ha⟩
  · have out : ∀ q, ¬ (P ≤ q ∧ q < P + 2 * n) → s'.pt q = s.pt q := by
      intro q hq
      rw [hpt, if_neg (by omega), if_neg (by omega), if_neg hq]
    have used : ∀ q e, s.pt q = some e → ¬ (P ≤ q ∧ q < P + 2 * n) := by
      intro q e hq hc
      have := hfree (q - P) (by omega)
      rw [show P + (q - P) = q by omega, hq] at this
      cases this
    refine ⟨fun q e hq => by rw [out q (used q e hq)]; exact hq, fun addr ha => ?_⟩
    rw [hr] at ha
    injection ha with ha
    subst ha
    have hm : mulU t 2 (n * s.page) = .ok (2 * (n * s.page)) := by rw [mulU, mulL, if_pos hl]
    rw [Nat.add_mul, Nat.mul_assoc] at hfit
    simp only [Mach.unmapRing, hm, bind, Except.bind, Mach.vmDeallocate, if_pos hfit]
    refine ⟨_, rfl, ?_⟩
    have hpgs : s'.pages (2 * (n * s.page)) = 2 * n := by
      rw [← Nat.mul_assoc, ← hpg]; exact Mach.pages_mul (by rw [hpg]; exact hp) _
    funext q
    simp only [hpgs, hpg, Nat.mul_div_cancel _ hp]
    by_cases hq : P ≤ q ∧ q < P + 2 * n
    · rw [if_pos hq]
      have := hfree (q - P) (by omega)
      rw [show P + (q - P) = q by omega] at this
      exact this.symm
    · rw [if_neg hq]; exact out q hq
  · have used : ∀ q e, s.pt q = some e → ¬ (P ≤ q ∧ q < P + 2 * n) := by
      intro q e hq hc
      have := hfree (q - P) (by omega)
      rw [show P + (q - P) = q by omega, hq] at this
      cases this
    refine ⟨fun q e hq => ?_, fun addr ha => by rw [hr] at ha; cases ha⟩
    have := used q e hq
    rw [hpt, if_neg (by omega), if_neg (by omega), if_neg this]
    exact hq

/-- C150, the fault in general: if the entry covers only `c < n` of the pages and creation succeeds, then
inside the first half page `c` is the same memory as page 0, and the second half does not begin with the
first page: no ring of `n` pages was made. -/
theorem C150_short (cover : Nat) (t : Target) {s s' : Mach} (w : MachWf s) {n : Nat}
    (hl : 2 * (n * s.page) < t.lim) (short : cover + 1 < n) {addr : Nat}
    (run : s.mapRingUpTo cover t (n * s.page) = .ok (s', .ok addr)) :
    (∃ e, s'.pt (addr / s.page) = some e ∧ s'.pt (addr / s.page + (cover + 1)) = some e ∧
      s'.pt (addr / s.page + n) ≠ some e) ∧ ¬ MachRing t s s' addr n := by
  obtain ⟨s1, r, e, -, h⟩ := mapRingUpTo_cases t w (by omega : 0 < n) hl cover
  rw [run] at e
  injection e with e
  injection e with e1 e2
  subst e1 e2
  rcases h with ⟨x, hr, -, -⟩ | ⟨P, o, o', -, -, -, -, -, hoo, ⟨hr, hpt⟩ | ⟨⟨x, hr⟩, -⟩⟩
  · cases hr
  · injection hr with hr
    subst hr
    rw [Nat.mul_div_cancel _ w.page]
    rw [Nat.min_eq_right (by omega)] at hpt
    have f0 : s'.pt P = some (o, 0) := by
      rw [hpt, if_neg (by omega), if_pos (by omega), Nat.sub_self]
    have f1 : s'.pt (P + (cover + 1)) = some (o, 0) := by
      rw [hpt, if_pos (by omega), Nat.sub_self]
    have f2 : s'.pt (P + n) ≠ some (o, 0) := by
      intro hc
      rw [hpt] at hc
      by_cases hq : P + (cover + 1) ≤ P + n ∧ P + n < P + 2 * (cover + 1)
      · rw [if_pos hq] at hc
        injection hc with hc
        injection hc with _ hc
        omega
      · rw [if_neg hq, if_neg (by omega), if_pos (by omega)] at hc
        injection hc with hc
        injection hc with hc _
        exact hoo hc.symm
    refine ⟨⟨_, f0, f1, f2⟩, fun hm => ?_⟩
    obtain ⟨o2, -, hs⟩ := hm.shows'
    have := hs 0 (by omega)
    rw [Nat.mul_div_cancel _ w.page, Nat.add_zero, Nat.add_zero, f0] at this
    exact f2 (this.2.trans this.1.symm)
  · cases hr

/-- C150, the other half of the fault: if the entry covers only `c < n` of the pages and the second half
cannot be mapped, the pages from `2 * c` on of the reserved `2 * n` stay behind. -/
theorem C150_short_leaks (cover : Nat) (t : Target) {s s' : Mach} (w : MachWf s) {n : Nat}
    (hl : 2 * (n * s.page) < t.lim) (short : cover + 1 < n) {code : Nat}
    (run : s.mapRingUpTo cover t (n * s.page) = .ok (s', .error (Error.kernel .ringSecondary code))) :
    ∃ P, ∀ i, 2 * (cover + 1) ≤ i → i < 2 * n → s.pt (P + i) = none ∧ s'.pt (P + i) ≠ none := by
  obtain ⟨s1, r, e, -, h⟩ := mapRingUpTo_cases t w (by omega : 0 < n) hl cover
  rw [run] at e
  injection e with e
  injection e with e1 e2
  subst e1 e2
  rcases h with ⟨x, hr, hx, -⟩ | ⟨P, o, o', -, -, hfree, -, -, -, ⟨hr, -⟩ | ⟨-, hpt⟩⟩
  · injection hr with hr
    exact absurd hr.symm (hx code)
  · cases hr
  · rw [Nat.min_eq_right (by omega)] at hpt
    refine ⟨P, fun i h1 h2 => ⟨hfree i h2, ?_⟩⟩
    rw [hpt, if_neg (by omega)]
    by_cases hq : P ≤ P + i ∧ P + i < P + n
    · rw [if_pos hq]; exact nofun
    · rw [if_neg hq, if_pos (by omega)]; exact nofun

/-! ### Non-vacuity, and the negation -/

/-- The example task of C30 makes a ring of three pages out of an entry for two. -/
theorem machShort_ring : ∃ s', machDemo.mapRingUpTo 1 ⟨.w64, true⟩ (3 * machDemo.page) =
    .ok (s', .ok 4096000) := ⟨_, rfl⟩

-- and out of an entry for eight: the hypotheses of `C150_partial`
example : ∃ s', machDemo.mapRingUpTo 7 ⟨.w64, true⟩ (3 * machDemo.page) = .ok (s', .ok 4096000) ∧
    MachWf machDemo ∧ 2 * (3 * machDemo.page) < (⟨.w64, true⟩ : Target).lim ∧ 3 ≤ 7 + 1 :=
  ⟨_, rfl, machDemo_wf, by decide, by decide⟩

-- the hypothesis of `C150_whole`
example : machDemo.pages (3 * machDemo.page) ≤ 2 + 1 := by decide

-- the hypotheses of `C150_short_leaks`: the fourth call fails
example : ∃ s' code, MachWf { machDemo with oracle := fun i => ⟨decide (i < 3), 0, 1000⟩ } ∧
    ({ machDemo with oracle := fun i => ⟨decide (i < 3), 0, 1000⟩ } : Mach).mapRingUpTo 1 ⟨.w64, true⟩
      (3 * machDemo.page) = .ok (s', .error (Error.kernel .ringSecondary code)) :=
  ⟨_, _, ⟨machDemo_wf.1, machDemo_wf.2, machDemo_wf.3, machDemo_wf.4⟩, rfl⟩

/-- C150 is false: an entry for two of three pages. -/
theorem C150_false : ¬ C150_full := by
  intro full
  obtain ⟨s', h⟩ := machShort_ring
  exact (C150_short 1 _ machDemo_wf (by decide) (by decide) h).2
    ((full 1 _ _ _ 3 _ machDemo_wf (by decide) (by decide) h).1 _ rfl)

end Vmap
