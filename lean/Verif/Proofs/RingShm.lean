import Verif.Spec.RingShm
import Verif.Props.Memfd
import Verif.Props.RingMap
/- Helper lemmas for C94: the fallback `memfd_open` followed by the rest of `map_ring`. -/
namespace Vmap
open Kernel Spec

theorem Kernel.SameWorld.trans {a b c : Kernel} (h : SameWorld a b) (g : SameWorld b c) :
    SameWorld a c := by
  have hf := h.fresh
  refine ⟨⟨g.page.trans h.page, fun o ho => (g.data o (by omega)).trans (h.data o ho),
    fun o ho => (g.size o (by omega)).trans (h.size o ho),
    fun o ho => (g.disk o (by omega)).trans (h.disk o ho), g.names.trans h.names,
    Nat.le_trans h.fresh g.fresh, Nat.le_trans h.nextFd g.nextFd, g.oracle.trans h.oracle⟩,
    g.pt.trans h.pt, g.fds.trans h.fds⟩

theorem Tries.same {n : Nat} {k k' : Kernel} (h : Tries n k k') : SameWorld k k' := by
  rw [h]
  exact ⟨⟨rfl, fun _ _ => rfl, fun _ _ => rfl, fun _ _ => rfl, rfl, Nat.le_refl _, Nat.le_refl _, rfl⟩,
    rfl, rfl⟩

theorem Tries.wf {t : Target} {n : Nat} {k k' : Kernel} (h : Tries n k k') (w : Wf t k) : Wf t k' := by
  rw [h]
  exact w.sub rfl (fun _ _ h => h) (fun _ _ h => h) (fun _ _ h => h) (Nat.le_refl _) (Nat.le_refl _)

theorem Tries.succ {n : Nat} {k k' : Kernel}
    (h : Tries n { k with tick := k.tick + 1, log := ⟨.memfd, .error EEXIST⟩ :: k.log } k') :
    Tries (n + 1) k k' := by
  rw [h, Tries]
  simp only [Kernel.mk.injEq, true_and]
  refine ⟨by omega, ?_⟩
  rw [List.replicate_succ', List.append_assoc]
  exact ⟨rfl, trivial⟩

/-- What the loop did: some failed tries, and then either nothing, or what `memfd_create` would do. -/
theorem shmLoop_cases : ∀ (rounds : Nat) (w : ShmKernel) (buf : List Byte), PathBuf buf →
    (∀ i, i < rounds → 0 ≤ w.clock (w.k.tick + i)) →
    ∃ w' x, Posix.shmLoop rounds w buf = .ok (w', x) ∧ w'.taken = w.taken ∧
      ((x = none ∧ Tries rounds w.k w'.k) ∨
       (∃ n k r, n < rounds ∧ Tries n w.k k ∧ x = some r ∧ Posix.memfdOpen k = (w'.k, r))) := by
  intro rounds
  induction rounds with
  | zero =>
    intro w buf _ _
    exact ⟨w, none, rfl, rfl, .inl ⟨rfl, rfl⟩⟩
  | succ rounds ih =>
    intro w buf hb hc
    obtain ⟨buf', name, h1, -, h3, -, h5⟩ := C29_name_partial (hc 0 (by omega)) hb
    rw [Nat.add_zero] at h1 h3
    -- one more failed try
    have again : w.shmOpen name = ({ w with k := { w.k with
          tick := w.k.tick + 1, log := ⟨.memfd, .error EEXIST⟩ :: w.k.log } }, .error EEXIST) →
        ∃ w' x, Posix.shmLoop (rounds + 1) w buf = .ok (w', x) ∧ w'.taken = w.taken ∧
          ((x = none ∧ Tries (rounds + 1) w.k w'.k) ∨
           (∃ n k r, n < rounds + 1 ∧ Tries n w.k k ∧ x = some r ∧
            Posix.memfdOpen k = (w'.k, r))) := by
      intro he
      obtain ⟨w', x, g1, g2, g3⟩ := ih { w with k := { w.k with
          tick := w.k.tick + 1, log := ⟨.memfd, .error EEXIST⟩ :: w.k.log } } buf' h5 (by
        intro i hi
        have := hc (i + 1) (by omega)
        rw [show w.k.tick + (i + 1) = w.k.tick + 1 + i by omega] at this
        exact this)
      refine ⟨w', x, ?_, g2, ?_⟩
      · simp only [Posix.shmLoop, h1, bind, Except.bind, he]
        rw [if_neg (by simp [Error.rawOsError, Error.lastOsError, Error.system, SysError.rawOsError])]
        exact g1
      · rcases g3 with ⟨a, b⟩ | ⟨n, k, r, a, b, c, d⟩
        · exact .inl ⟨a, b.succ⟩
        · exact .inr ⟨n + 1, k, r, by omega, b.succ, c, d⟩
    cases hx : w.taken name with
    | true =>
      apply again
      simp only [ShmKernel.shmOpen, hx, if_true]
      rfl
    | false =>
      rcases memfd_cases w.k with ⟨e, he⟩ | he
      · by_cases hee : e = EEXIST
        · subst hee
          apply again
          simp only [ShmKernel.shmOpen, hx, he]
          rfl
        · refine ⟨{ w with k := { w.k with
              tick := w.k.tick + 1, log := ⟨.memfd, .error e⟩ :: w.k.log } },
            some (.error (Error.lastOsError .memoryFd e)), ?_, rfl,
            .inr ⟨0, w.k, _, by omega, rfl, rfl, ?_⟩⟩
          · simp only [Posix.shmLoop, h1, bind, Except.bind, ShmKernel.shmOpen, hx, he]
            simp only [Bool.false_eq_true, if_false]
            rw [if_pos (by
              simp [Error.rawOsError, Error.lastOsError, Error.system, SysError.rawOsError, hee])]
            rfl
          · simp only [Posix.memfdOpen, he, wrapErr]
      · refine ⟨({ w with
            k := w.k.memfdCreate.1
            taken := fun n => n == name || w.taken n } : ShmKernel).shmUnlink name,
          some (.ok w.k.nextFd), ?_, ?_, .inr ⟨0, w.k, .ok w.k.nextFd, by omega, rfl, rfl, ?_⟩⟩
        · simp only [Posix.shmLoop, h1, bind, Except.bind, ShmKernel.shmOpen, hx, he]
          rfl
        · funext n
          show (n != name && (n == name || w.taken n)) = w.taken n
          by_cases hn : n = name
          · subst hn; simp [hx]
          · rw [bne_iff_ne.mpr hn, beq_eq_false_iff_ne.mpr hn]; rfl
        · simp only [Posix.memfdOpen, he, wrapErr]
          rfl

/-- `map_ring` over the fallback: some failed tries, and then either nothing, or what `map_ring` over
`memfd_create` does. -/
theorem mapRingShm_cases {t : Target} {w : ShmKernel} (wf : Wf t w.k) {rounds len : Nat}
    (hlen : w.k.page ∣ len) (hc : ∀ i, i < rounds → 0 ≤ w.clock (w.k.tick + i)) :
    ∃ w' x, Posix.mapRingShm t rounds w len = .ok (w', x) ∧ w'.taken = w.taken ∧
      ((x = none ∧ Tries rounds w.k w'.k) ∨
       (∃ n k r, n < rounds ∧ Tries n w.k k ∧ x = some r ∧
        Posix.mapRing t k len = .ok (w'.k, r))) := by
  obtain ⟨w1, x, e, g, h⟩ := shmLoop_cases rounds w pathBytes pathBytes_ok hc
  rcases h with ⟨rfl, h⟩ | ⟨n, k, r, hn, tr, rfl, h⟩
  · refine ⟨w1, none, ?_, g, .inl ⟨rfl, h⟩⟩
    simp only [Posix.mapRingShm, Posix.tmpOpenShm, e, bind, Except.bind, pure, Except.pure]
  · have hm : ∃ k' r', Posix.mapRing t k len = .ok (k', r') := by
      have hl : k.page ∣ len := by rw [tr.same.page]; exact hlen
      rcases Posix.mapRing_cases (tr.wf wf) hl with ⟨k', err, l, he, -⟩ | ⟨k', p, n, he, -⟩
      · exact ⟨_, _, he⟩
      · exact ⟨_, _, he⟩
    obtain ⟨k', r', hm⟩ := hm
    refine ⟨{ w1 with k := k' }, some r', ?_, g, .inr ⟨n, k, r', hn, tr, rfl, hm⟩⟩
    simp only [Posix.mapRing, Posix.tmpOpen, h] at hm
    simp only [Posix.mapRingShm, Posix.tmpOpenShm, e, bind, Except.bind, pure, Except.pure]
    cases r with
    | error er =>
      simp only [pure, Except.pure] at hm ⊢
      injection hm with hm; injection hm with h1 h2
      rw [← h1, ← h2]
    | ok fd =>
      simp only at hm ⊢
      cases hf : w1.k.ftruncate t fd len with
      | mk k2 r2 =>
        rw [hf] at hm
        cases r2 with
        | error errno =>
          simp only [pure, Except.pure] at hm ⊢
          injection hm with hm; injection hm with h1 h2
          rw [← h1, ← h2]
        | ok u =>
          simp only [bind, Except.bind, pure, Except.pure] at hm ⊢
          cases hw : Posix.wrapFd t k2 len fd with
          | error f => rw [hw] at hm; cases hm
          | ok kr =>
            rw [hw] at hm
            simp only at hm ⊢
            injection hm with hm; injection hm with h1 h2
            rw [← h1, ← h2]

/-- `Made` seen from before the failed tries. -/
theorem Made.before {t : Target} {n : Nat} {k k1 k' : Kernel} (tr : Tries n k k1) {hint ptr len : Nat}
    (h : Made t k1 k' hint ptr len) : Made t k k' hint ptr len := by
  have s := tr.same
  have hp := s.page
  have hpt := s.pt
  have hf : k1.fresh = k.fresh := by rw [tr]
  have hd : k1.nextFd = k.nextFd := by rw [tr]
  refine ⟨hp ▸ h.capacity, h.zero, hf ▸ h.mirror, ?_, ?_, h.fds.trans s.fds, ?_, h.wf⟩
  · intro q a b
    rw [← hpt]
    exact h.free q (by rw [hp]; exact a) (by rw [hp]; exact b)
  · intro q a
    rw [← hpt]
    exact h.others q (by rw [hp]; exact a)
  · have g := h.keeps
    exact ⟨g.page.trans hp, fun o ho => (g.data o (by omega)).trans (s.data o ho),
      fun o ho => (g.size o (by omega)).trans (s.size o ho),
      fun o ho => (g.disk o (by omega)).trans (s.disk o ho), g.names.trans s.names,
      by rw [← hf]; exact g.fresh, by rw [← hd]; exact g.nextFd, g.oracle.trans s.oracle⟩

end Vmap
