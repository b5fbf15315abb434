import Verif.Model.MachShort
import Verif.Props.Mach
/- Helper lemmas for C150. -/
namespace Vmap
open Spec

/-- How the call ends, `c` being the pages the entry covers: early with an error and nothing changed; with
the pages of the entry from `c` on; or with an error and the first `2 * c` pages gone. -/
theorem mapRingUpTo_cases (t : Target) {s : Mach} (w : MachWf s) {n : Nat} (hn : 0 < n)
    (hl : 2 * (n * s.page) < t.lim) (cover : Nat) :
    ∃ s' r, s.mapRingUpTo cover t (n * s.page) = .ok (s', r) ∧ s'.page = s.page ∧
      ((∃ e, r = .error e ∧ (∀ code, e ≠ Error.kernel .ringSecondary code) ∧ s'.pt = s.pt) ∨
       ∃ P o o', P ≠ 0 ∧ (P + 2 * n) * s.page < t.lim ∧ (∀ i, i < 2 * n → s.pt (P + i) = none) ∧
        s.fresh ≤ o ∧ s.fresh ≤ o' ∧ o ≠ o' ∧
        ((r = .ok (P * s.page) ∧ ∀ q, s'.pt q =
            if P + min n (cover + 1) ≤ q ∧ q < P + 2 * min n (cover + 1) then
              some (o, q - (P + min n (cover + 1)))
            else if P ≤ q ∧ q < P + n then some (o, q - P)
            else if P ≤ q ∧ q < P + 2 * n then some (o', q - P) else s.pt q) ∨
         ((∃ code, r = .error (Error.kernel .ringSecondary code)) ∧ ∀ q, s'.pt q =
            if P ≤ q ∧ q < P + 2 * min n (cover + 1) then none
            else if P ≤ q ∧ q < P + n then some (o, q - P)
            else if P ≤ q ∧ q < P + 2 * n then some (o', q - P) else s.pt q))) := by
  have hp := w.page
  have hm : mulU t 2 (n * s.page) = .ok (2 * (n * s.page)) := by rw [mulU, mulL, if_pos hl]
  have hpg2 : s.pages (2 * (n * s.page)) = 2 * n := by
    rw [← Nat.mul_assoc]; exact Mach.pages_mul hp _
  have hpgm : ∀ m, s.pages (m * s.page) = m := Mach.pages_mul hp
  simp only [Mach.mapRingUpTo, hm, bind, Except.bind, Mach.vmAllocateAnywhere, hpg2]
  by_cases h1 : (s.oracle s.tick).ok = true ∧ (s.oracle s.tick).page ≠ 0 ∧
      ((s.oracle s.tick).page + 2 * n) * s.page < t.lim ∧
      s.rangeFree (s.oracle s.tick).page (2 * n) = true
  rotate_left
  · rw [if_neg h1]
    exact ⟨_, _, rfl, rfl, .inl ⟨_, rfl, fun _ h => (by cases h), rfl⟩⟩
  rw [if_pos h1]
  obtain ⟨-, hp0, hfit, hfree⟩ := h1
  generalize (s.oracle s.tick).page = P at hp0 hfit hfree ⊢
  have hfree := s.rangeFree_iff _ _ hfree
  generalize hs1 : ({ (s.tock.mapRange P (2 * n) s.fresh 0 true) with fresh := s.fresh + 1 } : Mach) = s1
  have a1 : s1.page = s.page := by rw [← hs1]; rfl
  have a4 : s1.fresh = s.fresh + 1 := by rw [← hs1]
  have a5 : ∀ q, s1.pt q = if P ≤ q ∧ q < P + 2 * n then some (s.fresh, q - P) else s.pt q := by
    intro q
    rw [← hs1]
    show (if P ≤ q ∧ q < P + 2 * n then some (s.fresh, 0 + (q - P)) else s.pt q) = _
    rw [Nat.zero_add]
  have pgs : ∀ s' : Mach, s'.page = s.page → ∀ x, s'.pages x = s.pages x := by
    intro s' h x; simp only [Mach.pages, h]
  have hfit' : P * s.page + 2 * (n * s.page) < t.lim := by
    rw [← Nat.mul_assoc, ← Nat.add_mul]; exact hfit
  have hfit1 : P * s.page + n * s.page < t.lim := by omega
  have back : ∀ s' : Mach, s'.page = s.page → (∀ q, ¬ (P ≤ q ∧ q < P + 2 * n) → s'.pt q = s.pt q) →
      (s'.vmDeallocate t (P * s.page) (2 * (n * s.page))).1.pt = s.pt := by
    intro s' h hq
    funext q
    rw [Mach.vmDeallocate, if_pos hfit']
    simp only [h, pgs s' h, hpg2, Nat.mul_div_cancel _ hp]
    by_cases hq' : P ≤ q ∧ q < P + 2 * n
    · rw [if_pos hq']
      have := hfree (q - P) (by omega)
      rw [show P + (q - P) = q by omega] at this
      exact this.symm
    · rw [if_neg hq']; exact hq q hq'
  have dpage : ∀ (s' : Mach) a b, (s'.vmDeallocate t a b).1.page = s'.page := by
    intro s' a b; rw [Mach.vmDeallocate]; split <;> rfl
  simp only [Mach.vmAllocateFixed, a1, Nat.mul_mod_left, pgs s1 a1, hpgm, Nat.mul_div_cancel _ hp,
    hfit1, and_true]
  by_cases h2 : (s1.oracle s1.tick).ok = true
  rotate_left
  · rw [if_neg h2]
    exact ⟨_, _, rfl, (dpage _ _ _).trans a1,
      .inl ⟨_, rfl, fun _ h => (by cases h), back s1.tock a1 fun q hq => (a5 q).trans (if_neg hq)⟩⟩
  rw [if_pos h2]
  generalize hs2 : ({ (s1.tock.mapRange P n s1.fresh 0 true) with fresh := s1.fresh + 1 } : Mach) = s2
  have b1 : s2.page = s.page := by rw [← hs2, ← a1]; rfl
  have b5 : ∀ q, s2.pt q = if P ≤ q ∧ q < P + n then some (s1.fresh, q - P)
      else if P ≤ q ∧ q < P + 2 * n then some (s.fresh, q - P) else s.pt q := by
    intro q
    rw [← a5 q, ← hs2]
    show (if P ≤ q ∧ q < P + n then some (s1.fresh, 0 + (q - P)) else s1.pt q) = _
    rw [Nat.zero_add]
  have b6 : s2.pt P = some (s1.fresh, 0) := by
    rw [b5, if_pos (by omega), Nat.sub_self]
  have b7 : ∀ q, ¬ (P ≤ q ∧ q < P + 2 * n) → s2.pt q = s.pt q := by
    intro q hq
    rw [b5, if_neg (by omega), if_neg hq]
  have hne : n * s.page ≠ 0 := Nat.ne_of_gt (Nat.mul_pos hn hp)
  simp only [Mach.makeMemoryEntryUpTo, b1, Nat.mul_div_cancel _ hp, b6, pgs s2 b1, hpgm, ne_eq, hne,
    not_false_eq_true, and_true]
  by_cases h3 : (s2.oracle s2.tick).ok = true
  rotate_left
  · rw [if_neg h3]
    exact ⟨_, _, rfl, (dpage _ _ _).trans b1, .inl ⟨_, rfl, fun _ h => (by cases h), back s2.tock b1 b7⟩⟩
  rw [if_pos h3]
  have hc : 0 < min n (cover + 1) ∧ min n (cover + 1) ≤ n := by omega
  generalize min n (cover + 1) = c at hc ⊢
  have hcn : c * s.page ≤ n * s.page := Nat.mul_le_mul_right _ hc.2
  have hadd : addU t (P * s.page) (c * s.page) = .ok ((P + c) * s.page) := by
    rw [addU, addL, Nat.add_mul, if_pos (by omega)]
  have hmul : mulU t 2 (c * s.page) = .ok (2 * (c * s.page)) := by rw [mulU, mulL, if_pos (by omega)]
  generalize hs3 : ({ s2.tock with
    ports := fun q => if q = s2.nextPort then some (s1.fresh, 0) else s2.ports q
    nextPort := s2.nextPort + 1 } : Mach) = s3
  have c1 : s3.page = s.page := by rw [← hs3, ← b1]; rfl
  have c2 : s3.pt = s2.pt := by rw [← hs3]; rfl
  have c3 : s3.ports s2.nextPort = some (s1.fresh, 0) := by rw [← hs3]; exact if_pos rfl
  have hfit3 : (P + c) * s.page + c * s.page < t.lim := by rw [Nat.add_mul]; omega
  have hob : ∀ q, s3.pt q = s2.pt q := fun q => by rw [c2]
  simp only [hadd, Mach.vmMap, c3, c1, Nat.mul_mod_left, hfit3, and_true, pgs s3 c1, hpgm,
    Nat.mul_div_cancel _ hp]
  by_cases h4 : (s3.oracle s3.tick).ok = true
  · rw [if_pos h4]
    refine ⟨_, _, rfl, c1, .inr ⟨P, s1.fresh, s.fresh, hp0, hfit, hfree, by omega, by omega, by omega,
      .inl ⟨rfl, fun q => ?_⟩⟩⟩
    show (if P + c ≤ q ∧ q < P + c + c then some (s1.fresh, 0 + (q - (P + c))) else s3.pt q) = _
    rw [hob, b5, Nat.zero_add, Nat.add_assoc, ← Nat.two_mul]
  · rw [if_neg h4]
    simp only [hmul]
    refine ⟨_, _, rfl, (dpage _ _ _).trans c1, .inr ⟨P, s1.fresh, s.fresh, hp0, hfit, hfree, by omega,
      by omega, by omega, .inr ⟨⟨_, rfl⟩, fun q => ?_⟩⟩⟩
    rw [Mach.vmDeallocate, if_pos (by omega)]
    have hpgs := hpgm (2 * c)
    rw [Nat.mul_assoc] at hpgs
    have hpgs' : s3.tock.pages (2 * (c * s.page)) = 2 * c := (pgs s3.tock c1 _).trans hpgs
    have hdiv : P * s.page / s3.tock.page = P := by
      rw [show s3.tock.page = s.page from c1]; exact Nat.mul_div_cancel _ hp
    show (if P * s.page / s3.tock.page ≤ q ∧ q < P * s.page / s3.tock.page +
      s3.tock.pages (2 * (c * s.page)) then none else s3.pt q) = _
    rw [hpgs', hdiv, hob, b5]

end Vmap
