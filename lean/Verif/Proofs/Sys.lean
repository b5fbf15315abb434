import Verif.Proofs.Store
/- Helper lemmas: outcomes of the calls on existing mappings. -/
namespace Vmap
namespace Kernel

/-- The page table after `updRange`. -/
def updPt (pt : Nat → Option Pte) (p n : Nat) (f : Pte → Pte) : Nat → Option Pte := fun q =>
  if p ≤ q ∧ q < p + n then (pt q).map f else pt q

/-- The state after a recorded call that changed nothing. -/
def logged (k : Kernel) (c : Call) (r : Except Errno Nat) : Kernel :=
  { k with tick := k.tick + 1, log := ⟨c, r⟩ :: k.log }

theorem mprotect_cases (k : Kernel) (addr len : Nat) (prot : Prot) :
    (∃ e, k.mprotect addr len prot = (k.logged (.mprotect addr len prot) (.error e), .error e)) ∨
    (addr % k.page = 0 ∧
      (∀ q, addr / k.page ≤ q → q < addr / k.page + k.pages len →
        ∃ e, k.pt q = some e ∧ (prot.w = true → e.mayWrite = true)) ∧
      k.mprotect addr len prot =
        ({ k.logged (.mprotect addr len prot) (.ok 0) with
            pt := updPt k.pt (addr / k.page) (k.pages len) (fun e => { e with prot := prot }) },
          .ok ())) := by
  by_cases h1 : (addr % k.page != 0) = true
  · refine .inl ⟨EINVAL, ?_⟩
    have : k.mprotectCore addr len prot = (k.tock, .error EINVAL) := by
      simp only [mprotectCore]; exact if_pos h1
    simp only [mprotect, record, this]; rfl
  by_cases h2 : (!k.tock.rangeMapped (addr / k.page) (k.pages len)) = true
  · refine .inl ⟨ENOMEM, ?_⟩
    have : k.mprotectCore addr len prot = (k.tock, .error ENOMEM) := by
      simp only [mprotectCore]
      rw [if_neg (by exact h1), if_pos (by exact h2)]
    simp only [mprotect, record, this]; rfl
  by_cases h3 : (!k.tock.rangeMay prot (addr / k.page) (k.pages len)) = true
  · refine .inl ⟨EACCES, ?_⟩
    have : k.mprotectCore addr len prot = (k.tock, .error EACCES) := by
      simp only [mprotectCore]
      rw [if_neg (by exact h1), if_neg (by exact h2), if_pos (by exact h3)]
    simp only [mprotect, record, this]; rfl
  by_cases h4 : (!k.now.ok) = true
  · refine .inl ⟨k.now.errno, ?_⟩
    have : k.mprotectCore addr len prot = (k.tock, .error k.now.errno) := by
      simp only [mprotectCore]
      rw [if_neg (by exact h1), if_neg (by exact h2), if_neg (by exact h3), if_pos (by exact h4)]
    simp only [mprotect, record, this]; rfl
  · refine .inr ⟨by simpa using h1, ?_, ?_⟩
    · simp only [Bool.not_eq_true', Bool.not_eq_false] at h2 h3
      intro q a b
      obtain ⟨e, he⟩ := rangeMapped_iff.mp h2 q a b
      exact ⟨e, he, rangeMay_iff.mp h3 q e a b he⟩
    · have : k.mprotectCore addr len prot = (k.tock.updRange (addr / k.page) (k.pages len)
          (fun e => { e with prot := prot }), .ok ()) := by
        simp only [mprotectCore]
        rw [if_neg (by exact h1), if_neg (by exact h2), if_neg (by exact h3), if_neg (by exact h4)]
        rfl
      simp only [mprotect, record, this]; rfl

theorem madvise_cases (k : Kernel) (addr len : Nat) (adv : Madv) :
    (∃ e, k.madvise addr len adv = (k.logged (.madvise addr len adv) (.error e), .error e)) ∨
    (addr % k.page = 0 ∧
      (∀ q, addr / k.page ≤ q → q < addr / k.page + k.pages len → ∃ e, k.pt q = some e) ∧
      k.madvise addr len adv =
        ({ k.logged (.madvise addr len adv) (.ok 0) with
            pt := if adv = .dontneed then
              updPt k.pt (addr / k.page) (k.pages len) (fun e => { e with copy := none })
              else k.pt },
          .ok ())) := by
  by_cases h1 : (addr % k.page != 0) = true
  · refine .inl ⟨EINVAL, ?_⟩
    have : k.madviseCore addr len adv = (k.tock, .error EINVAL) := by
      simp only [madviseCore]; exact if_pos h1
    simp only [madvise, record, this]; rfl
  by_cases h2 : (!k.tock.rangeMapped (addr / k.page) (k.pages len)) = true
  · refine .inl ⟨ENOMEM, ?_⟩
    have : k.madviseCore addr len adv = (k.tock, .error ENOMEM) := by
      simp only [madviseCore]
      rw [if_neg (by exact h1), if_pos (by exact h2)]
    simp only [madvise, record, this]; rfl
  by_cases h4 : (!k.now.ok) = true
  · refine .inl ⟨k.now.errno, ?_⟩
    have : k.madviseCore addr len adv = (k.tock, .error k.now.errno) := by
      simp only [madviseCore]
      rw [if_neg (by exact h1), if_neg (by exact h2), if_pos (by exact h4)]
    simp only [madvise, record, this]; rfl
  · refine .inr ⟨by simpa using h1, ?_, ?_⟩
    · simp only [Bool.not_eq_true', Bool.not_eq_false] at h2
      exact (rangeMapped_iff (k := k.tock)).mp h2
    · by_cases h5 : adv = .dontneed
      · have : k.madviseCore addr len adv = (k.tock.updRange (addr / k.page) (k.pages len)
            (fun e => { e with copy := none }), .ok ()) := by
          simp only [madviseCore]
          rw [if_neg (by exact h1), if_neg (by exact h2), if_neg (by exact h4), if_pos h5]
          rfl
        simp only [madvise, record, this]; rw [if_pos h5]; rfl
      · have : k.madviseCore addr len adv = (k.tock, .ok ()) := by
          simp only [madviseCore]
          rw [if_neg (by exact h1), if_neg (by exact h2), if_neg (by exact h4), if_neg h5]
        simp only [madvise, record, this]; rw [if_neg h5]; rfl

theorem mlock_cases (k : Kernel) (addr len : Nat) (on : Bool) :
    (∃ e, k.mlock addr len on = (k.logged (.mlock addr len on) (.error e), .error e)) ∨
    (addr % k.page = 0 ∧
      (∀ q, addr / k.page ≤ q → q < addr / k.page + k.pages len → ∃ e, k.pt q = some e) ∧
      k.mlock addr len on =
        ({ k.logged (.mlock addr len on) (.ok 0) with
            pt := updPt k.pt (addr / k.page) (k.pages len) (fun e => { e with locked := on }) },
          .ok ())) := by
  by_cases h1 : (addr % k.page != 0) = true
  · refine .inl ⟨EINVAL, ?_⟩
    have : k.mlockCore addr len on = (k.tock, .error EINVAL) := by
      simp only [mlockCore]; exact if_pos h1
    simp only [mlock, record, this]; rfl
  by_cases h2 : (!k.tock.rangeMapped (addr / k.page) (k.pages len)) = true
  · refine .inl ⟨ENOMEM, ?_⟩
    have : k.mlockCore addr len on = (k.tock, .error ENOMEM) := by
      simp only [mlockCore]
      rw [if_neg (by exact h1), if_pos (by exact h2)]
    simp only [mlock, record, this]; rfl
  by_cases h4 : (!k.now.ok) = true
  · refine .inl ⟨k.now.errno, ?_⟩
    have : k.mlockCore addr len on = (k.tock, .error k.now.errno) := by
      simp only [mlockCore]
      rw [if_neg (by exact h1), if_neg (by exact h2), if_pos (by exact h4)]
    simp only [mlock, record, this]; rfl
  · refine .inr ⟨by simpa using h1, ?_, ?_⟩
    · simp only [Bool.not_eq_true', Bool.not_eq_false] at h2
      exact (rangeMapped_iff (k := k.tock)).mp h2
    · have : k.mlockCore addr len on = (k.tock.updRange (addr / k.page) (k.pages len)
          (fun e => { e with locked := on }), .ok ()) := by
        simp only [mlockCore]
        rw [if_neg (by exact h1), if_neg (by exact h2), if_neg (by exact h4)]
        rfl
      simp only [mlock, record, this]; rfl

/-- Some page of `[p, p+n)` shows page `i` of object `o` shared. -/
def ShownShared (k : Kernel) (p n : Nat) (o : Obj) (i : Nat) : Prop :=
  ∃ q e, p ≤ q ∧ q < p + n ∧ k.pt q = some e ∧ e.shared = true ∧ e.obj = o ∧ e.idx = i

theorem any_showsShared {k : Kernel} {p n : Nat} {o : Obj} {i : Nat} :
    (List.range n).any (fun j => k.showsShared (p + j) o i) = true ↔ k.ShownShared p n o i := by
  rw [List.any_eq_true]
  constructor
  · rintro ⟨j, hj, h⟩
    rw [List.mem_range] at hj
    simp only [showsShared] at h
    split at h
    · rename_i e he
      simp only [Bool.and_eq_true, beq_iff_eq] at h
      exact ⟨p + j, e, by omega, by omega, he, h.1.1, h.1.2, h.2⟩
    · cases h
  · rintro ⟨q, e, h1, h2, h3, h4, h5, h6⟩
    refine ⟨q - p, List.mem_range.mpr (by omega), ?_⟩
    simp only [showsShared, show p + (q - p) = q by omega, h3, h4, h5, h6]
    simp

/-- Stable storage after the shared pages of `[p, p+n)` were written to it. -/
def synced (k : Kernel) (p n : Nat) (o : Obj) (i : Nat) : Byte :=
  if (List.range n).any (fun j => k.showsShared (p + j) o (i / k.page)) then k.data o i
  else k.disk o i

theorem msync_cases (k : Kernel) (addr len : Nat) (sync : Bool) :
    (∃ e, k.msync addr len sync = (k.logged (.msync addr len sync) (.error e), .error e)) ∨
    (addr % k.page = 0 ∧
      (∀ q, addr / k.page ≤ q → q < addr / k.page + k.pages len → ∃ e, k.pt q = some e) ∧
      ∃ disk, k.msync addr len sync =
        ({ k.logged (.msync addr len sync) (.ok 0) with disk := disk }, .ok ()) ∧
      ∀ o i, (disk o i = k.disk o i ∨ disk o i = k.data o i) ∧
        (sync = true → k.ShownShared (addr / k.page) (k.pages len) o (i / k.page) →
          disk o i = k.data o i) ∧
        (¬ (sync = true ∧ k.ShownShared (addr / k.page) (k.pages len) o (i / k.page)) →
          disk o i = k.disk o i)) := by
  by_cases h1 : (addr % k.page != 0) = true
  · refine .inl ⟨EINVAL, ?_⟩
    have : k.msyncCore addr len sync = (k.tock, .error EINVAL) := by
      simp only [msyncCore]; exact if_pos h1
    simp only [msync, record, this]; rfl
  by_cases h2 : (!k.tock.rangeMapped (addr / k.page) (k.pages len)) = true
  · refine .inl ⟨ENOMEM, ?_⟩
    have : k.msyncCore addr len sync = (k.tock, .error ENOMEM) := by
      simp only [msyncCore]
      rw [if_neg (by exact h1), if_pos (by exact h2)]
    simp only [msync, record, this]; rfl
  by_cases h4 : (!k.now.ok) = true
  · refine .inl ⟨k.now.errno, ?_⟩
    have : k.msyncCore addr len sync = (k.tock, .error k.now.errno) := by
      simp only [msyncCore]
      rw [if_neg (by exact h1), if_neg (by exact h2), if_pos (by exact h4)]
    simp only [msync, record, this]; rfl
  · refine .inr ⟨by simpa using h1, ?_, ?_⟩
    · simp only [Bool.not_eq_true', Bool.not_eq_false] at h2
      exact (rangeMapped_iff (k := k.tock)).mp h2
    · cases sync with
      | false =>
        have : k.msyncCore addr len false = (k.tock, .ok ()) := by
          simp only [msyncCore]
          rw [if_neg (by exact h1), if_neg (by exact h2), if_neg (by exact h4)]
          rfl
        refine ⟨k.disk, by simp only [msync, record, this]; rfl, fun o i => ⟨.inl rfl, (fun h => by cases h), fun _ => rfl⟩⟩
      | true =>
        refine ⟨k.synced (addr / k.page) (k.pages len), ?_, ?_⟩
        · have : k.msyncCore addr len true =
              ({ k.tock with disk := k.synced (addr / k.page) (k.pages len) }, .ok ()) := by
            simp only [msyncCore]
            rw [if_neg (by exact h1), if_neg (by exact h2), if_neg (by exact h4)]
            rfl
          simp only [msync, record, this]; rfl
        · intro o i
          by_cases h : k.ShownShared (addr / k.page) (k.pages len) o (i / k.page)
          · have hs : k.synced (addr / k.page) (k.pages len) o i = k.data o i :=
              if_pos (any_showsShared.mpr h)
            exact ⟨.inr hs, fun _ _ => hs, fun hn => absurd ⟨rfl, h⟩ hn⟩
          · have hs : k.synced (addr / k.page) (k.pages len) o i = k.disk o i :=
              if_neg (fun h' => h (any_showsShared.mp h'))
            exact ⟨.inl hs, fun _ h' => absurd h' h, fun _ => hs⟩

/-- Updating entries without touching what they show keeps the state consistent; private
copies may be dropped. -/
theorem Wf.updPt {t : Target} {k k' : Kernel} (h : Wf t k) {p n : Nat} {f : Pte → Pte}
    (hp : k'.page = k.page) (hpt : k'.pt = updPt k.pt p n f) (hfds : k'.fds = k.fds)
    (hn : k'.names = k.names) (hf : k'.fresh = k.fresh) (hd : k'.nextFd = k.nextFd)
    (ho : ∀ e, (f e).obj = e.obj ∧ (f e).shared = e.shared ∧
      ((f e).copy = e.copy ∨ (f e).copy = none)) : Wf t k' := by
  have key : ∀ q e, k'.pt q = some e → ∃ e0, k.pt q = some e0 ∧ e.obj = e0.obj ∧
      e.shared = e0.shared ∧ (e.copy = e0.copy ∨ e.copy = none) := by
    intro q e he
    rw [hpt] at he
    unfold Kernel.updPt at he
    split at he
    · cases h0 : k.pt q with
      | none => rw [h0] at he; cases he
      | some e0 =>
        rw [h0] at he
        injection he with he
        subst he
        exact ⟨e0, rfl, ho e0⟩
    · exact ⟨e, he, rfl, rfl, .inl rfl⟩
  constructor
  · rw [hp]; exact h.page
  · intro q e he
    obtain ⟨e0, h0, -⟩ := key q e he
    rw [hp]; exact h.addr q e0 h0
  · intro q e he
    obtain ⟨e0, h0, h1, h2, h3⟩ := key q e he
    have := h.objs q e0 h0
    rw [hf, h1]
    refine ⟨this.1, fun c hc => ?_⟩
    rcases h3 with h3 | h3
    · exact this.2 c (by rw [← h3]; exact hc)
    · rw [h3] at hc; cases hc
  · rw [hfds, hf, hd]; exact h.fds
  · rw [hn, hf]; exact h.names
  · intro q e c he hc
    obtain ⟨e0, h0, h1, h2, h3⟩ := key q e he
    have hc0 : e0.copy = some c := by
      rcases h3 with h3 | h3
      · rw [← h3]; exact hc
      · rw [h3] at hc; cases hc
    obtain ⟨g1, g2, g3⟩ := h.excl q e0 c h0 hc0
    refine ⟨?_, by rw [hfds]; exact g2, by rw [hn]; exact g3⟩
    intro q' e' he'
    obtain ⟨e1, k0, k1, k2, k3⟩ := key q' e' he'
    obtain ⟨m1, m2⟩ := g1 q' e1 k0
    refine ⟨by rw [k1]; exact m1, fun hc' => ?_⟩
    rcases k3 with k3 | k3
    · exact m2 (by rw [← k3]; exact hc')
    · rw [k3] at hc'; cases hc'
  · intro q e he hs
    obtain ⟨e0, h0, h1, h2, h3⟩ := key q e he
    rcases h3 with h3 | h3
    · rw [h3]; exact h.shared q e0 h0 (by rw [← h2]; exact hs)
    · exact h3

theorem Wf.logged {t : Target} {k : Kernel} (h : Wf t k) (c r) : Wf t (k.logged c r) :=
  h.sub rfl (fun _ _ h => h) (fun _ _ h => h) (fun _ _ h => h) (Nat.le_refl _) (Nat.le_refl _)

end Kernel
end Vmap
