import Verif.Spec.Kernel
import Verif.Proofs.Mem
import Verif.Proofs.Size
/- Helper lemmas: what each system call can have done, given its result. -/
namespace Vmap
namespace Kernel

theorem Wf.page_pos {t k} (h : Wf t k) : 0 < k.page := by
  obtain ⟨s, hs, _⟩ := h.page
  rw [hs]; exact Nat.two_pow_pos s

theorem Wf.page_dvd_lim {t k} (h : Wf t k) : k.page ∣ t.lim := by
  obtain ⟨s, hs, h2⟩ := h.page
  rw [hs]; exact Nat.pow_dvd_pow 2 (by omega)

theorem Wf.four_page_le {t k} (h : Wf t k) : 4 * k.page ≤ t.lim := by
  obtain ⟨s, hs, h2⟩ := h.page
  rw [hs, show 4 * 2 ^ s = 2 ^ (s + 2) by rw [Nat.pow_add]; omega]
  exact Nat.pow_le_pow_right (by decide) h2

theorem rangeFree_iff {k : Kernel} : ∀ {n p : Nat},
    k.rangeFree p n = true ↔ ∀ q, p ≤ q → q < p + n → k.pt q = none
  | 0, p => by simp [rangeFree]; intro q; omega
  | n + 1, p => by
    simp only [rangeFree, Bool.and_eq_true, Option.isNone_iff_eq_none, rangeFree_iff (n := n)]
    constructor
    · rintro ⟨h0, h⟩ q h1 h2
      by_cases e : q = p
      · rw [e]; exact h0
      · exact h q (by omega) (by omega)
    · intro h
      exact ⟨h p (by omega) (by omega), fun q h1 h2 => h q (by omega) (by omega)⟩

theorem rangeMapped_iff {k : Kernel} : ∀ {n p : Nat},
    k.rangeMapped p n = true ↔ ∀ q, p ≤ q → q < p + n → ∃ e, k.pt q = some e
  | 0, p => by simp [rangeMapped]; intro q; omega
  | n + 1, p => by
    simp only [rangeMapped, Bool.and_eq_true, Option.isSome_iff_exists,
      rangeMapped_iff (n := n)]
    constructor
    · rintro ⟨h0, h⟩ q h1 h2
      by_cases e : q = p
      · rw [e]; exact h0
      · exact h q (by omega) (by omega)
    · intro h
      exact ⟨h p (by omega) (by omega), fun q h1 h2 => h q (by omega) (by omega)⟩

theorem rangeMay_iff {k : Kernel} {prot : Prot} : ∀ {n p : Nat},
    k.rangeMay prot p n = true ↔
      ∀ q e, p ≤ q → q < p + n → k.pt q = some e → prot.w = true → e.mayWrite = true
  | 0, p => by simp [rangeMay]; intro q; omega
  | n + 1, p => by
    simp only [rangeMay, Bool.and_eq_true, rangeMay_iff (n := n)]
    constructor
    · rintro ⟨h0, h⟩ q e h1 h2 h3 h4
      by_cases e' : q = p
      · subst e'; simpa [h3, h4] using h0
      · exact h q e (by omega) (by omega) h3 h4
    · intro h
      refine ⟨?_, fun q e h1 h2 => h q e (by omega) (by omega)⟩
      cases hp : k.pt p with
      | none => rfl
      | some e =>
        have := h p e (by omega) (by omega) hp
        cases hw : prot.w <;> simp_all

/-- Pages covering a whole number of pages. -/
theorem pages_mul {k : Kernel} (hp : 0 < k.page) {len : Nat} (h : k.page ∣ len) :
    k.pages len * k.page = len := by
  obtain ⟨m, rfl⟩ := h
  unfold pages
  have : (k.page * m + k.page - 1) / k.page = m := by
    rw [Nat.add_sub_assoc hp, Nat.mul_add_div hp, Nat.div_eq_of_lt (by omega)]; rfl
  rw [this, Nat.mul_comm]

theorem pages_le {k : Kernel} (hp : 0 < k.page) (len : Nat) :
    len ≤ k.pages len * k.page := by
  have := (isRoundUp_div (len := len) hp).2.1
  exact this

/-- The page table after mapping `n` pages at `p`. -/
def mappedPt (pt : Nat → Option Pte) (p n : Nat) (o : Obj) (idx : Nat) (prot : Prot)
    (shared mayWrite : Bool) : Nat → Option Pte := fun q =>
  if p ≤ q ∧ q < p + n then
    some { obj := o, idx := idx + (q - p), prot, shared, mayWrite, copy := none,
           locked := false }
  else pt q

theorem mmapAt_cases (t : Target) (k : Kernel) (c : Choice) (p n : Nat) (src : Option Obj)
    (idx : Nat) (prot : Prot) (flags : MapFlags) (mw : Bool) :
    (∃ pt' e, k.mmapAt t c p n src idx prot flags mw = ({ k with pt := pt' }, .error e) ∧
      (flags.fixed = false → pt' = k.pt) ∧
      (∀ q, pt' q = k.pt q ∨ (pt' q = none ∧ p ≤ q ∧ q < p + n))) ∨
    (p ≠ 0 ∧ (p + n) * k.page < t.lim ∧ c.ok = true ∧
      (flags.fixed = false → ∀ q, p ≤ q → q < p + n → k.pt q = none) ∧
      ((∃ o, src = some o ∧ k.mmapAt t c p n src idx prot flags mw =
        ({ k with pt := mappedPt k.pt p n o idx prot flags.shared mw }, .ok (p * k.page))) ∨
       (src = none ∧ k.mmapAt t c p n src idx prot flags mw =
        ({ k with
            pt := mappedPt k.pt p n k.fresh 0 prot flags.shared mw
            data := fun o i => if o = k.fresh then 0 else k.data o i
            size := fun o => if o = k.fresh then n * k.page else k.size o
            fresh := k.fresh + 1 }, .ok (p * k.page))))) := by
  unfold mmapAt
  by_cases h1 : (decide (t.lim ≤ (p + n) * k.page) || decide (p = 0)) = true
  · rw [if_pos h1]
    exact .inl ⟨k.pt, _, rfl, fun _ => rfl, fun _ => .inl rfl⟩
  · rw [if_neg h1]
    by_cases h2 : (!flags.fixed && !k.rangeFree p n) = true
    · rw [if_pos h2]
      exact .inl ⟨k.pt, _, rfl, fun _ => rfl, fun _ => .inl rfl⟩
    · rw [if_neg h2]
      by_cases h3 : (!c.ok) = true
      · rw [if_pos h3]
        by_cases h4 : (flags.fixed && c.clobber) = true
        · rw [if_pos h4]
          refine .inl ⟨_, _, rfl, ?_, ?_⟩
          · intro hf; simp [hf] at h4
          · intro q
            by_cases h6 : p ≤ q ∧ q < p + n
            · exact .inr ⟨if_pos h6, h6⟩
            · exact .inl (if_neg h6)
        · rw [if_neg h4]
          exact .inl ⟨k.pt, _, rfl, fun _ => rfl, fun _ => .inl rfl⟩
      · rw [if_neg h3]
        simp only [Bool.or_eq_true, decide_eq_true_eq, not_or, Nat.not_le] at h1
        refine .inr ⟨h1.2, h1.1, by simpa using h3, ?_, ?_⟩
        · intro hf
          have : k.rangeFree p n = true := by simpa [hf] using h2
          exact rangeFree_iff.mp this
        · cases src with
          | some o => exact .inl ⟨o, rfl, rfl⟩
          | none => exact .inr ⟨rfl, rfl⟩

theorem mmapSource_ok {k : Kernel} {prot : Prot} {flags : MapFlags} {fd src mw}
    (hs : k.mmapSource prot flags fd = .ok (src, mw)) :
    (flags.anon = true ∧ src = none ∧ mw = true) ∨
    (flags.anon = false ∧ ∃ d f, fd = some d ∧ k.fds d = some f ∧ f.canRead = true ∧
      (flags.shared = true → prot.w = true → f.canWrite = true) ∧
      src = some f.obj ∧ mw = (!flags.shared || f.canWrite)) := by
  unfold mmapSource at hs
  split at hs
  · rename_i hanon
    injection hs with hs
    injection hs with hs1 hs2
    exact .inl ⟨hanon, hs1.symm, hs2.symm⟩
  · rename_i hanon
    have hanon : flags.anon = false := by simpa using hanon
    split at hs
    · simp at hs
    · rename_i f hf
      split at hs
      · simp at hs
      · rename_i hr
        split at hs
        · simp at hs
        · rename_i hw
          injection hs with hs
          injection hs with hs1 hs2
          cases fd with
          | none => simp at hf
          | some d =>
            refine .inr ⟨hanon, d, f, rfl, by simpa using hf, by simpa using hr, ?_,
              hs1.symm, hs2.symm⟩
            intro h5 h6
            simpa [h5, h6] using hw

/-- All outcomes of `mmap`. -/
theorem mmap_cases (t : Target) (k : Kernel) (addr len : Nat) (prot : Prot)
    (flags : MapFlags) (fd : Option Nat) (off : Nat) :
    (∃ pt' e, k.mmap t addr len prot flags fd off =
        ({ k with pt := pt', tick := k.tick + 1,
                  log := ⟨.mmap addr len prot flags fd off, .error e⟩ :: k.log }, .error e) ∧
      (flags.fixed = false → pt' = k.pt) ∧
      (∀ q, pt' q = k.pt q ∨
        (pt' q = none ∧ addr / k.page ≤ q ∧ q < addr / k.page + k.pages len))) ∨
    (∃ p, len ≠ 0 ∧ off % k.page = 0 ∧ off < t.lim / 2 ∧
      p ≠ 0 ∧ (p + k.pages len) * k.page < t.lim ∧
      (flags.fixed = true → p = addr / k.page ∧ addr % k.page = 0) ∧
      (flags.fixed = false → ∀ q, p ≤ q → q < p + k.pages len → k.pt q = none) ∧
      ((flags.anon = true ∧ k.mmap t addr len prot flags fd off =
        ({ k with
          pt := mappedPt k.pt p (k.pages len) k.fresh 0 prot flags.shared true
          data := fun o i => if o = k.fresh then 0 else k.data o i
          size := fun o => if o = k.fresh then k.pages len * k.page else k.size o
          fresh := k.fresh + 1
          tick := k.tick + 1
          log := ⟨.mmap addr len prot flags fd off, .ok (p * k.page)⟩ :: k.log },
          .ok (p * k.page))) ∨
       (flags.anon = false ∧ ∃ d f, fd = some d ∧ k.fds d = some f ∧ f.canRead = true ∧
        (flags.shared = true → prot.w = true → f.canWrite = true) ∧
        k.mmap t addr len prot flags fd off =
        ({ k with
          pt := mappedPt k.pt p (k.pages len) f.obj (off / k.page) prot flags.shared
            (!flags.shared || f.canWrite)
          tick := k.tick + 1
          log := ⟨.mmap addr len prot flags fd off, .ok (p * k.page)⟩ :: k.log },
          .ok (p * k.page))))) := by
  have failed : ∀ e, k.mmapCore t addr len prot flags fd off = (k.tock, .error e) →
      ∃ pt' e, k.mmap t addr len prot flags fd off =
        ({ k with pt := pt', tick := k.tick + 1,
                  log := ⟨.mmap addr len prot flags fd off, .error e⟩ :: k.log }, .error e) ∧
      (flags.fixed = false → pt' = k.pt) ∧
      (∀ q, pt' q = k.pt q ∨
        (pt' q = none ∧ addr / k.page ≤ q ∧ q < addr / k.page + k.pages len)) := by
    intro e he
    refine ⟨k.pt, e, ?_, fun _ => rfl, fun _ => .inl rfl⟩
    simp only [mmap, record, he]; rfl
  by_cases hc : (decide (len = 0) || off % k.tock.page != 0 || decide (t.lim / 2 ≤ off) ||
      flags.shared == flags.priv) = true
  · exact .inl (failed EINVAL (by simp only [mmapCore]; rw [if_pos hc]))
  · cases hs : k.tock.mmapSource prot flags fd with
    | error e => exact .inl (failed e (by simp only [mmapCore]; rw [if_neg hc, hs]))
    | ok sm =>
      obtain ⟨src, mw⟩ := sm
      have hc' : len ≠ 0 ∧ off % k.page = 0 ∧ off < t.lim / 2 := by
        simp only [Bool.or_eq_true, decide_eq_true_eq, bne_iff_ne, ne_eq, not_or,
          Decidable.not_not, Nat.not_le, tock] at hc
        exact ⟨hc.1.1.1, hc.1.1.2, hc.1.2⟩
      have main : (∃ e, k.mmapCore t addr len prot flags fd off = (k.tock, .error e)) ∨
          ∃ p, (flags.fixed = true → p = addr / k.page ∧ addr % k.page = 0) ∧
          k.mmapCore t addr len prot flags fd off =
            k.tock.mmapAt t k.now p (k.pages len) src (off / k.page) prot flags mw := by
        cases hf : flags.fixed with
        | false =>
          refine .inr ⟨k.now.page, by simp, ?_⟩
          simp only [mmapCore]; rw [if_neg hc, hs]; simp only [hf]; rfl
        | true =>
          by_cases ha : addr % k.page = 0
          · refine .inr ⟨addr / k.page, fun _ => ⟨rfl, ha⟩, ?_⟩
            simp only [mmapCore]; rw [if_neg hc, hs]; simp [hf, tock, ha]; rfl
          · refine .inl ⟨EINVAL, ?_⟩
            simp only [mmapCore]; rw [if_neg hc, hs]; simp [hf, tock, ha]
      rcases main with ⟨e, he⟩ | ⟨p, hp, he⟩
      · exact .inl (failed e he)
      · rcases mmapAt_cases t k.tock k.now p (k.pages len) src (off / k.page) prot flags mw with
          ⟨pt', e, h1, h2, h3⟩ | ⟨h1, h2, -, h3, h4⟩
        · refine Or.inl ⟨pt', e, ?_, h2, ?_⟩
          · simp only [mmap, record, he, h1]; rfl
          · intro q
            rcases h3 q with h | ⟨h, h'⟩
            · exact .inl h
            · cases hf : flags.fixed with
              | false => exact .inl (by rw [h2 hf]; rfl)
              | true => rw [(hp hf).1] at h'; exact .inr ⟨h, h'⟩
        · refine Or.inr ⟨p, hc'.1, hc'.2.1, hc'.2.2, h1, h2, hp, h3, ?_⟩
          rcases mmapSource_ok hs with ⟨ha, hsrc, hmw⟩ | ⟨ha, d, f, hd, hf, hr, hw, hsrc, hmw⟩
          · rcases h4 with ⟨o, ho, -⟩ | ⟨-, h5⟩
            · rw [hsrc] at ho; cases ho
            · refine .inl ⟨ha, ?_⟩
              subst hmw
              simp only [mmap, record, he, h5]; rfl
          · rcases h4 with ⟨o, ho, h5⟩ | ⟨ho, -⟩
            · rw [hsrc] at ho
              injection ho with ho
              refine .inr ⟨ha, d, f, hd, hf, hr, hw, ?_⟩
              subst hmw
              subst ho
              simp only [mmap, record, he, h5]; rfl
            · rw [hsrc] at ho; cases ho

theorem munmap_eq {k : Kernel} {addr len : Nat} (h0 : len ≠ 0) (ha : addr % k.page = 0) :
    k.munmap addr len = ({ k with
      pt := fun q => if addr / k.page ≤ q ∧ q < addr / k.page + k.pages len then none
        else k.pt q
      tick := k.tick + 1
      log := ⟨.munmap addr len, .ok 0⟩ :: k.log }, .ok ()) := by
  have : ¬ ((decide (len = 0) || addr % k.tock.page != 0) = true) := by
    simp [h0, ha, tock]
  simp only [munmap, record, munmapCore]
  rw [if_neg this]
  rfl

theorem memfd_cases (k : Kernel) :
    (∃ e, k.memfdCreate = ({ k with tick := k.tick + 1, log := ⟨.memfd, .error e⟩ :: k.log },
      .error e)) ∨
    k.memfdCreate = ({ k with
      data := fun o i => if o = k.fresh then 0 else k.data o i
      size := fun o => if o = k.fresh then 0 else k.size o
      fresh := k.fresh + 1
      fds := fun d => if d = k.nextFd then some ⟨k.fresh, true, true⟩ else k.fds d
      nextFd := k.nextFd + 1
      tick := k.tick + 1
      log := ⟨.memfd, .ok k.nextFd⟩ :: k.log }, .ok k.nextFd) := by
  cases h : k.now.ok with
  | false => exact .inl ⟨k.now.errno, by simp [memfdCreate, memfdCreateCore, record, h, tock, Except.map]⟩
  | true =>
    refine .inr ?_
    simp only [memfdCreate, record, memfdCreateCore, h]
    rfl

theorem ftruncate_cases (t : Target) (k : Kernel) (fd len : Nat) :
    (∃ e, k.ftruncate t fd len =
      ({ k with tick := k.tick + 1, log := ⟨.ftruncate fd len, .error e⟩ :: k.log },
        .error e)) ∨
    (∃ f, k.fds fd = some f ∧ f.canWrite = true ∧ len < t.lim / 2 ∧
      k.ftruncate t fd len = ({ k with
        size := fun o' => if o' = f.obj then len else k.size o'
        data := fun o' i =>
          if o' = f.obj ∧ (len ≤ i ∨ k.size f.obj ≤ i) then 0 else k.data o' i
        tick := k.tick + 1
        log := ⟨.ftruncate fd len, .ok 0⟩ :: k.log }, .ok ())) := by
  cases hf : k.fds fd with
  | none => exact .inl ⟨EBADF, by simp [ftruncate, ftruncateCore, record, hf, tock, Except.map]⟩
  | some f =>
    by_cases hc : (!f.canWrite || decide (t.lim / 2 ≤ len)) = true
    · refine .inl ⟨EINVAL, ?_⟩
      have : k.ftruncateCore t fd len = (k.tock, .error EINVAL) := by
        simp only [ftruncateCore, tock, hf]; rw [if_pos hc]
      simp only [ftruncate, record, this]; rfl
    · cases h : k.now.ok with
      | false =>
        refine .inl ⟨k.now.errno, ?_⟩
        have : k.ftruncateCore t fd len = (k.tock, .error k.now.errno) := by
          simp only [ftruncateCore, tock, hf]; rw [if_neg hc]; simp [h]
        simp only [ftruncate, record, this]; rfl
      | true =>
        refine .inr ⟨f, rfl, ?_, ?_, ?_⟩
        · cases hw : f.canWrite <;> simp_all
        · simp at hc; omega
        · have : k.ftruncateCore t fd len = (k.tock.resizeObj f.obj len, .ok ()) := by
            simp only [ftruncateCore, tock, hf]; rw [if_neg hc]; simp [h]
          simp only [ftruncate, record, this]; rfl

end Kernel
end Vmap
