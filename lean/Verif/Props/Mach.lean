import Verif.Spec.Mach
/-
Property theorem C30: what ring creation on macOS leaves behind.
-/
namespace Vmap
open Spec

theorem Mach.rangeFree_iff (s : Mach) (p n : Nat) :
    s.rangeFree p n = true → ∀ i, i < n → s.pt (p + i) = none := by
  induction n generalizing p with
  | zero => intro _ i hi; omega
  | succ n ih =>
    intro h i hi
    rw [Mach.rangeFree, Bool.and_eq_true] at h
    cases i with
    | zero => simpa using h.1
    | succ i =>
      have := ih (p + 1) h.2 i (by omega)
      rw [show p + 1 + i = p + (i + 1) by omega] at this
      exact this

theorem Mach.pages_mul {s : Mach} (hp : 0 < s.page) (n : Nat) : s.pages (n * s.page) = n := by
  rw [Mach.pages]
  apply Nat.div_eq_of_lt_le
  · omega
  · rw [Nat.succ_mul]; omega

/-- C30 in full: creating a ring changes nothing but the ring's own pages: in particular the task
holds the same port rights as before, and if it fails the address space is as it was. -/
def C30_full : Prop :=
  ∀ (t : Target) (s s' : Mach) (n : Nat) (r : Result Nat), MachWf s → 0 < n →
    2 * (n * s.page) < t.lim → s.mapRing t (n * s.page) = .ok (s', r) →
    s'.ports = s.ports ∧ (∀ addr, r = .ok addr → MachRing t s s' addr n) ∧
    (∀ e, r = .error e → s'.pt = s.pt)

/-- C30 as far as it is true.  Address space: success creates the ring and changes nothing else,
failure leaves no page behind.  Port rights: if creation fails before the second half is
mapped, none is left behind; otherwise one is (also on success), and nothing ever releases
it.  (Missing: the port right in those two cases, where the full statement is false.) -/
theorem C30_partial (t : Target) {s : Mach} (w : MachWf s) {n : Nat} (hn : 0 < n)
    (hl : 2 * (n * s.page) < t.lim) :
    ∃ s' r, s.mapRing t (n * s.page) = .ok (s', r) ∧
      (∀ addr, r = .ok addr → MachRing t s s' addr n ∧ OnePortMore s s' ∧
        ∃ s2, s'.unmapRing t addr (n * s.page) = .ok (s2, .ok ()) ∧ s2.pt = s.pt ∧
          s2.ports = s'.ports) ∧
      (∀ e, r = .error e → s'.pt = s.pt ∧
        ((∃ code, code ≠ 0 ∧ (e = Error.kernel .ringAllocate code ∨ e = Error.kernel .ringPrimary code ∨
            e = Error.kernel .ringEntry code)) ∧ s'.ports = s.ports ∨
         (∃ code, code ≠ 0 ∧ e = Error.kernel .ringSecondary code) ∧ OnePortMore s s')) := by
  have hp := w.page
  have hm : mulU t 2 (n * s.page) = .ok (2 * (n * s.page)) := by rw [mulU, mulL, if_pos hl]
  have hpg2 : s.pages (2 * (n * s.page)) = 2 * n := by
    rw [← Nat.mul_assoc]; exact Mach.pages_mul hp _
  have hpg : s.pages (n * s.page) = n := Mach.pages_mul hp _
  have ne : ∀ c, Mach.failCode c ≠ 0 := fun c => Nat.succ_ne_zero _
  simp only [Mach.mapRing, hm, bind, Except.bind, Mach.vmAllocateAnywhere, hpg2]
  by_cases h1 : (s.oracle s.tick).ok = true ∧ (s.oracle s.tick).page ≠ 0 ∧
      ((s.oracle s.tick).page + 2 * n) * s.page < t.lim ∧
      s.rangeFree (s.oracle s.tick).page (2 * n) = true
  rotate_left
  · rw [if_neg h1]
    refine ⟨_, _, rfl, fun _ h => (by cases h), fun e h => ⟨rfl, .inl ⟨⟨_, ne (s.oracle s.tick), .inl ?_⟩, rfl⟩⟩⟩
    injection h with h
    exact h.symm
  rw [if_pos h1]
  obtain ⟨-, hp0, hfit, hfree⟩ := h1
  generalize hP : (s.oracle s.tick).page = P at hp0 hfit hfree ⊢
  have hfree := s.rangeFree_iff _ _ hfree
  generalize hs1 : ({ (s.tock.mapRange P (2 * n) s.fresh 0 true) with fresh := s.fresh + 1 } : Mach) = s1
  have a1 : s1.page = s.page := by rw [← hs1]; rfl
  have a2 : s1.ports = s.ports := by rw [← hs1]; rfl
  have a3 : s1.nextPort = s.nextPort := by rw [← hs1]; rfl
  have a4 : s1.fresh = s.fresh + 1 := by rw [← hs1]
  have a5 : ∀ q, ¬ (P ≤ q ∧ q < P + 2 * n) → s1.pt q = s.pt q := by
    intro q hq; rw [← hs1]; exact if_neg hq
  have pgs : ∀ s' : Mach, s'.page = s.page → ∀ x, s'.pages x = s.pages x := by
    intro s' h x; simp only [Mach.pages, h]
  have hfit' : P * s.page + 2 * (n * s.page) < t.lim := by
    rw [← Nat.mul_assoc, ← Nat.add_mul]; exact hfit
  have hfit1 : P * s.page + n * s.page < t.lim := by omega
  have hfit2 : (P + n) * s.page + n * s.page < t.lim := by rw [Nat.add_mul]; omega
  -- giving the pages back restores the page table
  have back : ∀ s' : Mach, s'.page = s.page → (∀ q, ¬ (P ≤ q ∧ q < P + 2 * n) → s'.pt q = s.pt q) →
      (s'.vmDeallocate t (P * s.page) (2 * (n * s.page))).1.pt = s.pt := by
    intro s' h hq
    funext q
    rw [Mach.vmDeallocate, if_pos hfit']
    simp only [h, pgs s' h, hpg2, Nat.mul_div_cancel _ hp]
    by_cases hq' : P ≤ q ∧ q < P + 2 * n
    · rw [if_pos hq']
      have := hfree (q - P) (by omega)
      rw [show P + (q - P) = q by omega] at this
      exact this.symm
    · rw [if_neg hq']; exact hq q hq'
  have keep : ∀ s' : Mach, (s'.vmDeallocate t (P * s.page) (2 * (n * s.page))).1.ports = s'.ports := by
    intro s'; rw [Mach.vmDeallocate, if_pos hfit']; rfl
  simp only [Mach.vmAllocateFixed, a1, Nat.mul_mod_left, pgs s1 a1, hpg, Nat.mul_div_cancel _ hp,
    hfit1, and_true]
  by_cases h2 : (s1.oracle s1.tick).ok = true
  rotate_left
  · rw [if_neg h2]
    refine ⟨_, _, rfl, fun _ h => (by cases h), fun e h => ⟨?_, .inl ⟨⟨_, ne (s1.oracle s1.tick), .inr (.inl ?_)⟩, ?_⟩⟩⟩
    · exact back s1.tock a1 a5
    · injection h with h; exact h.symm
    · rw [keep]; exact a2
  rw [if_pos h2]
  generalize hs2 : ({ (s1.tock.mapRange P n s1.fresh 0 true) with fresh := s1.fresh + 1 } : Mach) = s2
  have b1 : s2.page = s.page := by rw [← hs2, ← a1]; rfl
  have b2 : s2.ports = s.ports := by rw [← hs2, ← a2]; rfl
  have b3 : s2.nextPort = s.nextPort := by rw [← hs2, ← a3]; rfl
  have b4 : ∀ i, i < n → s2.pt (P + i) = some (s1.fresh, i) := by
    intro i hi
    rw [← hs2]
    show (if P ≤ P + i ∧ P + i < P + n then some (s1.fresh, 0 + (P + i - P)) else _) = _
    rw [if_pos (by omega)]
    congr 2
    omega
  have b7 : ∀ i, i < n → s2.heir (P + i) = true := by
    intro i hi
    rw [← hs2]
    exact if_pos (by omega)
  have b5 : ∀ q, ¬ (P ≤ q ∧ q < P + 2 * n) → s2.pt q = s.pt q := by
    intro q hq
    rw [← a5 q hq, ← hs2]
    exact if_neg (by omega)
  have b6 := b4 0 hn
  rw [Nat.add_zero] at b6
  have hne : n * s.page ≠ 0 := Nat.ne_of_gt (Nat.mul_pos hn hp)
  simp only [Mach.makeMemoryEntry, b1, Nat.mul_div_cancel _ hp, b6, pgs s2 b1, hpg, b3, ne_eq, hne,
    not_false_eq_true, and_true]
  by_cases h3 : (s2.oracle s2.tick).ok = true
  rotate_left
  · rw [if_neg h3]
    refine ⟨_, _, rfl, fun _ h => (by cases h), fun e h => ⟨?_, .inl ⟨⟨_, ne (s2.oracle s2.tick), .inr (.inr ?_)⟩, ?_⟩⟩⟩
    · exact back s2.tock b1 b5
    · injection h with h; exact h.symm
    · rw [keep]; exact b2
  rw [if_pos h3]
  have hadd : addU t (P * s.page) (n * s.page) = .ok ((P + n) * s.page) := by
    have : (P + n) * s.page ≤ (P + 2 * n) * s.page := Nat.mul_le_mul_right _ (by omega)
    rw [addU, addL, ← Nat.add_mul, if_pos (by omega)]
  generalize hs3 : ({ s2.tock with
    ports := fun q => if q = s.nextPort then some (s1.fresh, 0) else s2.ports q
    nextPort := s.nextPort + 1 } : Mach) = s3
  have c1 : s3.page = s.page := by rw [← hs3, ← b1]; rfl
  have c2 : s3.pt = s2.pt := by rw [← hs3]; rfl
  have c6 : s3.heir = s2.heir := by rw [← hs3]; rfl
  have c3 : s3.ports s.nextPort = some (s1.fresh, 0) := by rw [← hs3]; exact if_pos rfl
  have c4 : OnePortMore s s3 := by
    refine ⟨s.nextPort, _, w.ports _ (Nat.le_refl _), c3, fun q hq => ?_⟩
    rw [← hs3, ← b2]
    exact if_neg hq
  have c5 : ∀ q, ¬ (P ≤ q ∧ q < P + 2 * n) → s3.pt q = s.pt q := by rw [c2]; exact b5
  simp only [hadd, Mach.vmMap, c3, c1, Nat.mul_mod_left, pgs s3 c1, hpg, Nat.mul_div_cancel _ hp,
    hfit2, and_true]
  by_cases h4 : (s3.oracle s3.tick).ok = true
  rotate_left
  · rw [if_neg h4]
    simp only [hm]
    refine ⟨_, _, rfl, fun _ h => (by cases h), fun e h => ⟨?_, .inr ⟨⟨_, ne (s3.oracle s3.tick), ?_⟩, ?_⟩⟩⟩
    · exact back s3.tock c1 c5
    · injection h with h; exact h.symm
    · rw [OnePortMore, keep]; exact c4
  rw [if_pos h4]
  have d1 : ∀ i, i < n → (s3.tock.mapRange (P + n) n s1.fresh 0 false).pt (P + i) = some (s1.fresh, i) := by
    intro i hi
    rw [← b4 i hi, ← c2]
    exact if_neg (by omega)
  have d2 : ∀ i, i < n → (s3.tock.mapRange (P + n) n s1.fresh 0 false).pt (P + n + i) = some (s1.fresh, i) := by
    intro i hi
    show (if P + n ≤ P + n + i ∧ P + n + i < P + n + n then some (s1.fresh, 0 + (P + n + i - (P + n)))
      else _) = _
    rw [if_pos (by omega)]
    congr 2
    omega
  have d3 : ∀ q, ¬ (P ≤ q ∧ q < P + 2 * n) → (s3.tock.mapRange (P + n) n s1.fresh 0 false).pt q = s.pt q := by
    intro q hq
    rw [← c5 q hq]
    exact if_neg (by omega)
  refine ⟨_, _, rfl, ?_, fun _ h => (by cases h)⟩
  intro addr h
  injection h with h
  subst h
  refine ⟨⟨Nat.mul_mod_left _ _, ⟨Nat.mul_ne_zero hp0 (by omega), ?_⟩, ?_, ⟨s1.fresh, by omega, ?_⟩, ?_, ?_⟩, c4, ?_⟩
  · rw [← Nat.add_mul]; exact hfit
  · rw [Nat.mul_div_cancel _ hp]; exact hfree
  · rw [Nat.mul_div_cancel _ hp]; exact fun i hi => ⟨d1 i hi, d2 i hi⟩
  · rw [Nat.mul_div_cancel _ hp]
    intro q hq
    apply d3
    intro hq'
    exact hq (q - P) (by omega) (by omega)
  · rw [Nat.mul_div_cancel _ hp]
    refine fun i hi => ⟨?_, if_pos (by omega)⟩
    rw [← b7 i hi, ← c6]
    exact if_neg (by omega)
  · have hb := back (s3.tock.mapRange (P + n) n s1.fresh 0 false) c1 d3
    rw [Mach.vmDeallocate, if_pos hfit'] at hb
    simp only [Mach.unmapRing, hm, bind, Except.bind, Mach.vmDeallocate, if_pos hfit']
    exact ⟨_, rfl, hb, rfl⟩

/-- Non-vacuity: a task, a ring of two pages and a machine on which it fits. -/
example : ∃ s : Mach, MachWf s ∧ 0 < 2 ∧ 2 * (2 * s.page) < (⟨.w32, true⟩ : Target).lim :=
  ⟨⟨4096, fun _ => none, fun _ => none, 0, 1, 0, fun _ => ⟨true, 0, 7⟩, fun _ => true⟩,
    ⟨by decide, fun _ _ h => (by cases h), fun _ _ => rfl, fun _ _ h => (by cases h)⟩, by decide, by decide⟩

/-- Every successful ring creation leaks a port right. -/
theorem C30_leaks (t : Target) {s s' : Mach} (w : MachWf s) {n : Nat} (hn : 0 < n)
    (hl : 2 * (n * s.page) < t.lim) {addr : Nat}
    (h : s.mapRing t (n * s.page) = .ok (s', .ok addr)) : s'.ports ≠ s.ports := by
  obtain ⟨s1, r, h1, h2, -⟩ := C30_partial t w hn hl
  rw [h] at h1
  injection h1 with h1
  injection h1 with h1 h1'
  subst h1
  obtain ⟨-, ⟨port, e, g1, g2, -⟩, -⟩ := h2 addr h1'.symm
  intro he
  rw [he, g1] at g2
  cases g2

/-- An example task: nothing mapped, no ports, a willing kernel. -/
def machDemo : Mach :=
  ⟨4096, fun _ => none, fun _ => none, 0, 1, 0, fun _ => ⟨true, 0, 1000⟩, fun _ => true⟩

theorem machDemo_wf : MachWf machDemo :=
  ⟨by decide, fun _ _ h => (by cases h), fun _ _ => rfl, fun _ _ h => (by cases h)⟩

/-- Non-vacuity: a ring of three pages is created on the example task. -/
theorem machDemo_ring : ∃ s', machDemo.mapRing ⟨.w64, true⟩ (3 * machDemo.page) =
    .ok (s', .ok 4096000) := ⟨_, rfl⟩

theorem C30_false : ¬ C30_full := by
  intro h
  obtain ⟨s', h1⟩ := machDemo_ring
  exact C30_leaks _ machDemo_wf (by decide) (by decide) h1
    (h _ _ _ 3 _ machDemo_wf (by decide) (by decide) h1).1

end Vmap
