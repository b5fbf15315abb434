import Verif.Proofs.Kernel
/- Helper lemmas: system calls keep the kernel consistent. -/
namespace Vmap
namespace Kernel

/-- Removing mappings, descriptors or names, and allocating object ids, keeps consistency. -/
theorem Wf.sub {t : Target} {k k' : Kernel} (h : Wf t k) (hp : k'.page = k.page)
    (hpt : ∀ q e, k'.pt q = some e → k.pt q = some e)
    (hfds : ∀ d f, k'.fds d = some f → k.fds d = some f)
    (hn : ∀ n o, k'.names n = some o → k.names n = some o)
    (hf : k.fresh ≤ k'.fresh) (hd : k.nextFd ≤ k'.nextFd) : Wf t k' where
  page := by rw [hp]; exact h.page
  addr := fun p e he => by rw [hp]; exact h.addr p e (hpt p e he)
  objs := fun p e he => by
    have := h.objs p e (hpt p e he)
    exact ⟨by omega, fun c hc => by have := this.2 c hc; omega⟩
  fds := fun d f hdf => by have := h.fds d f (hfds d f hdf); omega
  names := fun n o ho => by have := h.names n o (hn n o ho); omega
  excl := fun p e c he hc => by
    obtain ⟨h1, h2, h3⟩ := h.excl p e c (hpt p e he) hc
    exact ⟨fun q e' he' => h1 q e' (hpt q e' he'), fun d f hdf => h2 d f (hfds d f hdf),
      fun n o ho => h3 n o (hn n o ho)⟩
  shared := fun p e he => h.shared p e (hpt p e he)

/-- Mapping pages without private copies to an allocated object keeps consistency. -/
theorem Wf.mapped {t : Target} {k k' : Kernel} (h : Wf t k) {p n : Nat} {o : Obj} {idx prot sh mw}
    (hp : k'.page = k.page) (hpt : k'.pt = mappedPt k.pt p n o idx prot sh mw)
    (hfds : k'.fds = k.fds) (hn : k'.names = k.names) (hf : k.fresh ≤ k'.fresh)
    (hd : k'.nextFd = k.nextFd) (ho : o < k'.fresh)
    (hne : ∀ p e c, k.pt p = some e → e.copy = some c → o ≠ c)
    (hp0 : p ≠ 0) (hfit : (p + n) * k.page < t.lim) : Wf t k' := by
  have key : ∀ q e, k'.pt q = some e →
      (k.pt q = some e) ∨ (p ≤ q ∧ q < p + n ∧ e.copy = none ∧ e.obj = o) := by
    intro q e he
    rw [hpt] at he
    unfold mappedPt at he
    split at he
    · rename_i hq
      injection he with he
      subst he
      exact .inr ⟨hq.1, hq.2, rfl, rfl⟩
    · exact .inl he
  constructor
  · rw [hp]; exact h.page
  · intro q e he
    rw [hp]
    rcases key q e he with h1 | ⟨h1, h2, -, -⟩
    · exact h.addr q e h1
    · refine ⟨by omega, Nat.lt_of_le_of_lt (Nat.mul_le_mul_right _ (by omega)) hfit⟩
  · intro q e he
    rcases key q e he with h1 | ⟨-, -, h3, h4⟩
    · have := h.objs q e h1
      exact ⟨by omega, fun c hc => by have := this.2 c hc; omega⟩
    · exact ⟨by rw [h4]; exact ho, fun c hc => by rw [h3] at hc; cases hc⟩
  · intro d f hdf
    rw [hfds] at hdf
    have := h.fds d f hdf
    omega
  · intro n o hno
    rw [hn] at hno
    have := h.names n o hno
    omega
  · intro q e c he hc
    rcases key q e he with h1 | ⟨-, -, h3, -⟩
    · obtain ⟨e1, e2, e3⟩ := h.excl q e c h1 hc
      refine ⟨?_, by rw [hfds]; exact e2, by rw [hn]; exact e3⟩
      intro q' e' he'
      rcases key q' e' he' with h2 | ⟨-, -, h5, h6⟩
      · exact e1 q' e' h2
      · exact ⟨by rw [h6]; exact hne q e c h1 hc, fun hc' => by rw [h5] at hc'; cases hc'⟩
    · rw [h3] at hc; cases hc
  · intro q e he hs
    rcases key q e he with h1 | ⟨-, -, h3, -⟩
    · exact h.shared q e h1 hs
    · exact h3

theorem Wf.fresh_ne {t k} (h : Wf t k) : ∀ p e c, k.pt p = some e → e.copy = some c →
    k.fresh ≠ c := fun p e c he hc => by have := (h.objs p e he).2 c hc; omega

theorem Wf.fd_ne {t k} (h : Wf t k) {d f} (hd : k.fds d = some f) :
    ∀ p e c, k.pt p = some e → e.copy = some c → f.obj ≠ c :=
  fun p e c he hc => (h.excl p e c he hc).2.1 d f hd

theorem Wf.mmap {t : Target} {k : Kernel} (h : Wf t k) (addr len prot flags fd off) :
    Wf t (k.mmap t addr len prot flags fd off).1 := by
  rcases mmap_cases t k addr len prot flags fd off with
    ⟨pt', e, he, -, h3⟩ | ⟨p, -, -, -, h4, h5, -, -, h8⟩
  · rw [he]
    refine h.sub rfl ?_ (fun _ _ h => h) (fun _ _ h => h) (Nat.le_refl _) (Nat.le_refl _)
    intro q e hq
    rcases h3 q with h1 | ⟨h1, -⟩
    · dsimp only at hq; rw [h1] at hq; exact hq
    · dsimp only at hq; rw [h1] at hq; cases hq
  · rcases h8 with ⟨-, he⟩ | ⟨-, d, f, -, hf, -, -, he⟩
    · rw [he]
      exact h.mapped rfl rfl rfl rfl (Nat.le_succ _) rfl (Nat.lt_succ_self _) h.fresh_ne h4 h5
    · rw [he]
      exact h.mapped rfl rfl rfl rfl (Nat.le_refl _) rfl (h.fds d f hf).1 (h.fd_ne hf) h4 h5

theorem Wf.memfd {t : Target} {k : Kernel} (h : Wf t k) : Wf t k.memfdCreate.1 := by
  rcases memfd_cases k with ⟨e, he⟩ | he
  · rw [he]
    exact h.sub rfl (fun _ _ h => h) (fun _ _ h => h) (fun _ _ h => h) (Nat.le_refl _)
      (Nat.le_refl _)
  · rw [he]
    have key : ∀ d f, (if d = k.nextFd then some (⟨k.fresh, true, true⟩ : Fd) else k.fds d)
        = some f → (k.fds d = some f) ∨ (d = k.nextFd ∧ f.obj = k.fresh) := by
      intro d f hd
      split at hd
      · rename_i e; injection hd with hd; subst hd; exact .inr ⟨e, rfl⟩
      · exact .inl hd
    constructor
    · exact h.page
    · exact h.addr
    · intro p e he
      have := h.objs p e he
      exact ⟨Nat.lt_succ_of_lt this.1, fun c hc => Nat.lt_succ_of_lt (this.2 c hc)⟩
    · intro d f hd
      dsimp only at hd ⊢
      rcases key d f hd with h1 | ⟨h1, h2⟩
      · have := h.fds d f h1; omega
      · omega
    · intro n o hn
      exact Nat.lt_succ_of_lt (h.names n o hn)
    · intro p e c he hc
      obtain ⟨e1, e2, e3⟩ := h.excl p e c he hc
      refine ⟨e1, ?_, e3⟩
      intro d f hd
      rcases key d f hd with h1 | ⟨-, h2⟩
      · exact e2 d f h1
      · rw [h2]; exact h.fresh_ne p e c he hc
    · exact h.shared

theorem Wf.ftruncate {t : Target} {k : Kernel} (h : Wf t k) (fd len) :
    Wf t (k.ftruncate t fd len).1 := by
  rcases ftruncate_cases t k fd len with ⟨e, he⟩ | ⟨f, -, -, -, he⟩
  · rw [he]
    exact h.sub rfl (fun _ _ h => h) (fun _ _ h => h) (fun _ _ h => h) (Nat.le_refl _)
      (Nat.le_refl _)
  · rw [he]
    exact h.sub rfl (fun _ _ h => h) (fun _ _ h => h) (fun _ _ h => h) (Nat.le_refl _)
      (Nat.le_refl _)

theorem Wf.close {t : Target} {k : Kernel} (h : Wf t k) (fd) : Wf t (k.close fd) := by
  refine h.sub rfl (fun _ _ h => h) ?_ (fun _ _ h => h) (Nat.le_refl _) (Nat.le_refl _)
  intro d f hd
  simp only [Kernel.close, tock] at hd
  split at hd
  · cases hd
  · exact hd

theorem Wf.munmap {t : Target} {k : Kernel} (h : Wf t k) (addr len) :
    Wf t (k.munmap addr len).1 := by
  by_cases hc : (decide (len = 0) || addr % k.tock.page != 0) = true
  · have : (k.munmap addr len).1 = { k with tick := k.tick + 1, log := ⟨.munmap addr len, .error EINVAL⟩ :: k.log } := by
      simp only [Kernel.munmap, record, munmapCore]; rw [if_pos hc]; rfl
    rw [this]
    exact h.sub rfl (fun _ _ h => h) (fun _ _ h => h) (fun _ _ h => h) (Nat.le_refl _)
      (Nat.le_refl _)
  · simp only [Bool.or_eq_true, decide_eq_true_eq, bne_iff_ne, ne_eq, not_or,
      Decidable.not_not, tock] at hc
    rw [munmap_eq hc.1 hc.2]
    refine h.sub rfl ?_ (fun _ _ h => h) (fun _ _ h => h) (Nat.le_refl _) (Nat.le_refl _)
    intro q e hq
    dsimp only at hq
    split at hq
    · cases hq
    · exact hq

theorem Wf.sameButData {t : Target} {k k' : Kernel} (h : Wf t k) (s : SameButData k k') :
    Wf t k' :=
  h.sub s.page (by rw [s.pt]; exact fun _ _ h => h) (by rw [s.fds]; exact fun _ _ h => h)
    (by rw [s.names]; exact fun _ _ h => h) (by rw [s.fresh]; exact Nat.le_refl _)
    (by rw [s.nextFd]; exact Nat.le_refl _)

end Kernel
end Vmap
