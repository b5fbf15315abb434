import Verif.Proofs.MachJob
import Verif.Props.Darwin
/-
C148: ring creation on macOS while other threads use the same address space.
-/
namespace Vmap
open Kernel Spec

/-- C148: with nothing in between, the kernel calls one after the other are `map_ring`. -/
theorem C148_alone (t : Target) (k : Kernel) (len : Nat) :
    MachJob.run t k (.allocate len) 5 = (Darwin.mapRing t k len).map (fun x => (x.1, MachJob.done x.2)) := by
  have hdone : ∀ n k r, MachJob.run t k (.done r) n = .ok (k, .done r) := by
    intro n
    induction n with
    | zero => intro k r; rfl
    | succ n ih => intro k r; exact ih k r
  have hundo : ∀ n k addr full err, MachJob.run t k (.undo addr full err) (n + 1) =
      .ok ((k.vmDeallocate t addr full).1, .done (.error err)) := by
    intro n k addr full err
    exact hdone n _ _
  rw [MachJob.run]
  simp only [MachJob.step, Darwin.mapRing, bind, Except.bind, pure, Except.pure]
  rcases hm : mulU t 2 len with e | full
  · rfl
  dsimp only
  rcases k.vmAllocate t full with ⟨k1, e | addr⟩
  · exact hdone _ _ _
  dsimp only
  rw [MachJob.run]
  simp only [MachJob.step, bind, Except.bind, pure, Except.pure]
  rcases k1.vmAllocateAt t addr len with ⟨k2, e | _⟩
  · simp only [hm]
    exact hundo _ _ _ _ _
  dsimp only
  rw [MachJob.run]
  simp only [MachJob.step, bind, Except.bind, pure, Except.pure]
  rcases k2.memoryEntry len addr with ⟨k3, e | ⟨len3, port⟩⟩
  · simp only [hm]
    exact hundo _ _ _ _ _
  dsimp only
  rw [MachJob.run]
  simp only [MachJob.step, bind, Except.bind, pure, Except.pure]
  rcases addU t addr len3 with e | half
  · rfl
  dsimp only
  rcases k3.vmMap t half len3 port with ⟨k4, e | _⟩
  · dsimp only
    rcases mulU t 2 len3 with e | full
    · rfl
    · exact hundo _ _ _ _ _
  · exact hdone _ _ _

section
variable {t : Target} {k0 : Kernel}

/-- C148: whatever others do in between, the creation does not panic, and after at most five kernel calls of
its own it has returned. -/
theorem C148_ends (wf : Wf t k0) {len : Nat} (pages : k0.page ∣ len) (fits : 2 * len < t.lim) {n : Nat}
    {k : Kernel} {j : MachJob} (run : MachRun t len k0 n k j) :
    (∃ k' j', j.step t k = .ok (k', j')) ∧ (5 ≤ n → ∃ r, j = .done r) := by
  obtain ⟨m, rfl⟩ := pages
  rw [Nat.mul_comm k0.page] at run fits
  have now := machRun_now wf fits run
  refine ⟨?_, fun hn => ?_⟩
  · obtain ⟨k', j', h, -⟩ := mach_step now.fine fits now.ok now.held
    exact ⟨k', j', h⟩
  · have := now.rank
    have hz : j.rank = 0 := by omega
    cases j <;> first | exact ⟨_, rfl⟩ | (simp [MachJob.rank] at hz)

theorem MachJob.step_ports {k k' : Kernel} {j j' : MachJob} (step : j.step t k = .ok (k', j'))
    (other : ∀ len addr, j ≠ .entry len addr) : k'.ports = k.ports := by
  cases j with
  | entry len addr => exact (other _ _ rfl).elim
  | allocate len =>
    simp only [MachJob.step, bind, Except.bind, pure, Except.pure] at step
    rcases hm : mulU t 2 len with e | full <;> rw [hm] at step
    · cases step
    dsimp only at step
    have hp : (k.vmAllocate t full).1.ports = k.ports := by
      simp only [vmAllocate, record, vmAllocateCore]
      split <;> rfl
    rcases hq : k.vmAllocate t full with ⟨k1, e | a⟩ <;> rw [hq] at step hp <;> cases step <;> exact hp
  | overwrite len addr =>
    simp only [MachJob.step, bind, Except.bind, pure, Except.pure] at step
    have hp : (k.vmAllocateAt t addr len).1.ports = k.ports := by
      simp only [vmAllocateAt, record, vmAllocateAtCore]
      split <;> rfl
    rcases hq : k.vmAllocateAt t addr len with ⟨k1, e | a⟩ <;> rw [hq] at step hp
    · dsimp only at step
      rcases hm : mulU t 2 len with e | full <;> rw [hm] at step <;> cases step
      exact hp
    · cases step
      exact hp
  | second len addr port =>
    simp only [MachJob.step, bind, Except.bind, pure, Except.pure] at step
    rcases hh : addU t addr len with e | half <;> rw [hh] at step
    · cases step
    dsimp only at step
    have hp : (k.vmMap t half len port).1.ports = k.ports := by
      simp only [vmMap, record, vmMapCore]
      split
      · split <;> rfl
      · rfl
    rcases hq : k.vmMap t half len port with ⟨k1, e | a⟩ <;> rw [hq] at step hp
    · dsimp only at step
      rcases hm : mulU t 2 len with e | full <;> rw [hm] at step <;> cases step
      exact hp
    · cases step
      exact hp
  | undo addr full err =>
    cases step
    simp only [vmDeallocate, record, vmDeallocateCore]
    split <;> rfl
  | done r => cases step; rfl

/-- C148: a kernel call of a creation touches nothing that is not its own.  The third call alone adds a
port right. -/
theorem C148_others (wf : Wf t k0) {len : Nat} (pages : k0.page ∣ len) (fits : 2 * len < t.lim) {n : Nat}
    {k k' : Kernel} {j j' : MachJob} (run : MachRun t len k0 n k j) (step : j.step t k = .ok (k', j')) :
    MachActs (j.room k0.page len) (j'.room k0.page len) k k' ∧
    ((∀ len addr, j ≠ .entry len addr) → k'.ports = k.ports) := by
  obtain ⟨m, rfl⟩ := pages
  rw [Nat.mul_comm k0.page] at run fits ⊢
  have now := machRun_now wf fits run
  obtain ⟨k1, j1, h, own⟩ := mach_step now.fine fits now.ok now.held
  rw [step] at h
  cases h
  exact ⟨own.acts, MachJob.step_ports step⟩

/-- C148: what is returned is a ring: a circular mapping, all of it zero, of memory that came into being
during the creation and that nobody else knows — as long as nobody uses it. -/
theorem C148_result (wf : Wf t k0) {len : Nat} (pages : k0.page ∣ len) (fits : 2 * len < t.lim) {n : Nat}
    {k : Kernel} {addr : Nat} (run : MachRun t len k0 n k (.done (.ok addr))) :
    (∃ o, k.Mirror t addr len o ∧ k0.fresh ≤ o ∧ Secret k (addr / k.page, 2 * len / k.page) o) ∧
    k.loadN addr (2 * len) = .ok (List.replicate (2 * len) 0) ∧
    RingAt t k ⟨addr, len, 0, 0⟩ 0 ∧ InfAt t k ⟨addr, len, 0, 0⟩ 0 := by
  obtain ⟨m, rfl⟩ := pages
  rw [Nat.mul_comm k0.page] at run fits ⊢
  have now := machRun_now wf fits run
  have hu := now.fine.wf.page_pos
  obtain ⟨place, hm, o, hpt⟩ := now.ok
  have held := now.held
  rw [MachJob.room, ← now.fine.page, room_eq hu] at held
  have haddr := place.aligned
  have hfit := place.fits
  rw [← now.fine.page]
  generalize hp : addr / k.page = p at *
  obtain ⟨g1, g2, g3⟩ := hpt p (Nat.le_refl _) (by omega)
  have hring : k.pt = Posix.ringPt k.pt p m o := by
    funext q
    by_cases hq : p ≤ q ∧ q < p + 2 * m
    · rw [Posix.ringPt, if_pos hq, (hpt q hq.1 hq.2).1]
    · rw [Posix.ringPt, if_neg hq]
  have mirror : k.Mirror t addr (m * k.page) o := by
    have := Posix.mirror_of_ringPt (t := t) (k' := k) (pt := k.pt) (p := p) (n := m) (len := m * k.page) (o := o) hu hm rfl
      (Nat.le_of_lt hfit) hring g2
    rwa [← haddr] at this
  obtain ⟨e, e1, -, e3, e4⟩ := held p ⟨Nat.le_refl _, by show p < p + 2 * m; omega⟩
  rw [g1] at e1
  cases e1
  have circ : k.Circular t addr (m * k.page) := by
    refine ⟨o, mirror, fun q e he ho => ?_⟩
    have hq := e4.pages q e he ho
    rw [haddr, ← Nat.mul_assoc, ← Nat.add_mul]
    exact ⟨Nat.mul_le_mul_right _ hq.1, Nat.mul_lt_mul_of_pos_right hq.2 hu⟩
  refine ⟨⟨o, mirror, e3, ?_⟩, ?_, .placed now.fine.wf circ rfl rfl, .placed now.fine.wf circ rfl rfl⟩
  · rw [room_eq hu]; exact e4
  · rw [loadN_shows (o := o) (fun i => i % (m * k.page)) (2 * (m * k.page)) addr mirror.shows']
    congr 1
    rw [List.eq_replicate_iff]
    refine ⟨by simp, fun b hb => ?_⟩
    rw [List.mem_map] at hb
    obtain ⟨i, -, hi⟩ := hb
    rw [← hi]; exact g3 _

/-- C148: a creation that fails after it has got pages gives all of them back with its last call; the error
is that of the kernel call that failed. -/
theorem C148_failed (wf : Wf t k0) {len : Nat} (pages : k0.page ∣ len) (fits : 2 * len < t.lim) {n : Nat}
    {k : Kernel} {j : MachJob} (run : MachRun t len k0 n k j) :
    (∀ addr full err, j = .undo addr full err → ∃ k', j.step t k = .ok (k', .done (.error err)) ∧
      (∀ q, InRoom (addr / k0.page, 2 * len / k0.page) q → k.pt q ≠ none ∧ k'.pt q = none)) ∧
    ∀ err, j = .done (.error err) → ∃ code, code ≠ 0 ∧ (err = Error.kernel .ringAllocate code ∨
      err = Error.kernel .ringPrimary code ∨ err = Error.kernel .ringEntry code ∨
      err = Error.kernel .ringSecondary code) := by
  obtain ⟨m, rfl⟩ := pages
  rw [Nat.mul_comm k0.page] at run fits ⊢
  have now := machRun_now wf fits run
  refine ⟨?_, ?_⟩
  · rintro addr full err rfl
    obtain ⟨k1, j1, h, own⟩ := mach_step now.fine fits now.ok now.held
    have hj : j1 = .done (.error err) := by cases h; rfl
    subst hj
    refine ⟨k1, h, fun q hq => ⟨?_, ?_⟩⟩
    · obtain ⟨e, he, -⟩ := now.held q hq
      rw [he]; exact fun h => nomatch h
    · rcases own.acts.gone q hq with g | g
      · exact (InRoom.empty g).elim
      · exact g
  · rintro err rfl
    exact now.ok

/-- C148: two creations do not disturb each other: a kernel call of the one is something that may
happen between two calls of the other, and they still have no page in common afterwards. -/
theorem C148_apart {k0' : Kernel} (wf : Wf t k0) (wf' : Wf t k0') {len len' : Nat} (pages : k0.page ∣ len)
    (pages' : k0'.page ∣ len') (fits : 2 * len < t.lim) (fits' : 2 * len' < t.lim) {n n' : Nat} {k k' : Kernel}
    {a a' b : MachJob} (run : MachRun t len k0 n k a) (other : MachRun t len' k0' n' k b)
    (apart : ∀ q, InRoom (a.room k0.page len) q → ¬ InRoom (b.room k0'.page len') q)
    (step : a.step t k = .ok (k', a')) :
    MachAround t (b.room k0'.page len') k k' ∧
    ∀ q, InRoom (a'.room k0.page len) q → ¬ InRoom (b.room k0'.page len') q := by
  obtain ⟨m, rfl⟩ := pages
  obtain ⟨m', rfl⟩ := pages'
  rw [Nat.mul_comm k0.page] at run fits
  rw [Nat.mul_comm k0'.page] at other fits'
  rw [Nat.mul_comm k0.page, Nat.mul_comm k0'.page] at apart ⊢
  have now := machRun_now wf fits run
  have now' := machRun_now wf' fits' other
  obtain ⟨k1, j1, h, own⟩ := mach_step now.fine fits now.ok now.held
  rw [step] at h
  cases h
  exact acts_around now.fine.wf own.fine.wf own.acts now.held now'.held apart

/-- C148: in a program with any number of threads that make rings at the same time, every creation runs as if
the others were just anybody: all that is said of a single one holds of it.  No two of them
have a page in common. -/
theorem C148_team (wf : Wf t k0) {k : Kernel} {ts : Nat → Option (Nat × MachJob)} (team : MachTeam t k0 k ts) :
    (∀ i len j, ts i = some (len, j) → ∃ k1 n, Wf t k1 ∧ k1.page = k0.page ∧ k0.page ∣ len ∧ 2 * len < t.lim ∧
      MachRun t len k1 n k j) ∧
    ∀ i x len len' a b, i ≠ x → ts i = some (len, a) → ts x = some (len', b) →
      ∀ q, InRoom (a.room k0.page len) q → ¬ InRoom (b.room k0.page len') q := by
  suffices h : (Wf t k ∧ k.page = k0.page) ∧ (∀ i len j, ts i = some (len, j) → ∃ k1 n, Wf t k1 ∧ k1.page = k0.page ∧
      k0.page ∣ len ∧ 2 * len < t.lim ∧ MachRun t len k1 n k j) ∧
      ∀ i x len len' a b, i ≠ x → ts i = some (len, a) → ts x = some (len', b) →
        ∀ q, InRoom (a.room k0.page len) q → ¬ InRoom (b.room k0.page len') q from h.2
  induction team with
  | start => exact ⟨⟨wf, rfl⟩, (fun _ _ _ h => nomatch h), fun _ _ _ _ _ _ _ h => nomatch h⟩
  | @begin k ts i len before idle pages fits ih =>
    obtain ⟨fine, runs, apart⟩ := ih
    refine ⟨fine, fun x l j hx => ?_, fun x y l l' a b hxy hx hy => ?_⟩
    · simp only at hx
      split at hx
      · cases hx
        exact ⟨k, 0, fine.1, fine.2, pages, fits, .start⟩
      · exact runs x l j hx
    · simp only at hx hy
      split at hx
      · cases hx
        exact fun q hq => (InRoom.empty hq).elim
      · split at hy
        · cases hy
          exact fun q _ hq => InRoom.empty hq
        · exact apart x y l l' a b hxy hx hy
  | @step k ts i len j k' j' before busy step ih =>
    obtain ⟨fine, runs, apart⟩ := ih
    obtain ⟨k1, n, w1, p1, d1, f1, run⟩ := runs i len j busy
    have hd1 : k1.page ∣ len := by rw [p1]; exact d1
    have others : ∀ x l b, x ≠ i → ts x = some (l, b) → MachAround t (b.room k0.page l) k k' ∧
        ∀ q, InRoom (j'.room k0.page len) q → ¬ InRoom (b.room k0.page l) q := by
      intro x l b hx hb
      obtain ⟨k2, m, w2, p2, d2, f2, runb⟩ := runs x l b hb
      have := C148_apart w1 w2 hd1 (by rw [p2]; exact d2) f1 f2 run runb
        (by rw [p1, p2]; exact apart i x len l j b (Ne.symm hx) busy hb) step
      rwa [p1, p2] at this
    have hfine : Wf t k' ∧ k'.page = k0.page := by
      obtain ⟨m, rfl⟩ := hd1
      rw [Nat.mul_comm k1.page] at run f1
      have now := machRun_now w1 f1 run
      obtain ⟨k3, j3, h, own⟩ := mach_step now.fine f1 now.ok now.held
      rw [step] at h
      cases h
      exact ⟨own.fine.wf, own.fine.page.trans p1⟩
    refine ⟨hfine, fun x l a hx => ?_, fun x y l l' a b hxy hx hy => ?_⟩
    · simp only at hx
      split at hx
      · cases hx
        exact ⟨k1, n + 1, w1, p1, d1, f1, .own run step⟩
      · rename_i hne
        obtain ⟨k2, m, w2, p2, d2, f2, runb⟩ := runs x l a hx
        exact ⟨k2, m, w2, p2, d2, f2, .other runb (by rw [p2]; exact (others x l a hne hx).1)⟩
    · simp only at hx hy
      split at hx
      · cases hx
        rw [if_neg (by omega)] at hy
        exact (others y l' b (by omega) hy).2
      · split at hy
        · cases hy
          exact fun q h1 h2 => (others x l a (by assumption) hx).2 q h2 h1
        · exact apart x y l l' a b hxy hx hy
  | @stop k ts i len ret before busy ih =>
    obtain ⟨fine, runs, apart⟩ := ih
    refine ⟨fine, fun x l j hx => ?_, fun x y l l' a b hxy hx hy => ?_⟩
    · simp only at hx
      split at hx
      · cases hx
      · exact runs x l j hx
    · simp only at hx hy
      split at hx
      · cases hx
      · split at hy
        · cases hy
        · exact apart x y l l' a b hxy hx hy
  | @other k ts k' before sane what ih =>
    obtain ⟨fine, runs, apart⟩ := ih
    refine ⟨⟨sane.wf, sane.page.trans fine.2⟩, fun x l j hx => ?_, apart⟩
    obtain ⟨k2, m, w2, p2, d2, f2, runb⟩ := runs x l j hx
    exact ⟨k2, m, w2, p2, d2, f2, .other runb (by rw [p2]; exact what x l j hx)⟩

end

/-! ### Examples -/

/-- `n` calls of the creation of a ring of two pages, alone; the calls whose bits are set in `fail` fail. -/
def machAt (fail n : Nat) : Kernel × MachJob :=
  match MachJob.run ⟨.w64, true⟩ { demo fail with mach := true } (.allocate 8192) n with
  | .ok x => x
  | .error _ => (demo fail, .done (.ok 0))

theorem machRingDemo_wf (fail : Nat) : Wf ⟨.w64, true⟩ { demo fail with mach := true } := by
  have h := demo_wf (t := ⟨.w64, true⟩) fail
  exact ⟨h.1, h.2, h.3, h.4, h.5, h.6, h.7⟩

/-- The creation goes on alone. -/
theorem machRun_alone {t : Target} {k0 : Kernel} (wf : Wf t k0) {len : Nat} (pages : k0.page ∣ len)
    (fits : 2 * len < t.lim) (n : Nat) {m : Nat} {k : Kernel} {j : MachJob} (run : MachRun t len k0 m k j) :
    ∃ x, MachJob.run t k j n = .ok x ∧ MachRun t len k0 (m + n) x.1 x.2 := by
  induction n generalizing m k j with
  | zero => exact ⟨_, rfl, run⟩
  | succ n ih =>
    obtain ⟨k', j', h⟩ := (C148_ends wf pages fits run).1
    obtain ⟨x, h1, h2⟩ := ih (.own run h)
    refine ⟨x, ?_, by rwa [show m + (n + 1) = m + 1 + n by omega]⟩
    rw [MachJob.run, h]
    exact h1

theorem machAt_run (fail n : Nat) :
    MachRun ⟨.w64, true⟩ 8192 { demo fail with mach := true } n (machAt fail n).1 (machAt fail n).2 := by
  obtain ⟨x, h1, h2⟩ := machRun_alone (machRingDemo_wf fail) (len := 8192) (by show (4096 : Nat) ∣ 8192; decide)
    (by show (2 * 8192 : Nat) < _; decide) n .start
  rw [Nat.zero_add] at h2
  rw [machAt, h1]
  exact h2

/-- The ring is at page 1000. -/
example : ∃ o, (machAt 0 4).1.Mirror ⟨.w64, true⟩ 4096000 8192 o := by
  have run : MachRun ⟨.w64, true⟩ 8192 demoMac 4 (machAt 0 4).1 (.done (.ok 4096000)) := machAt_run 0 4
  obtain ⟨⟨o, h, -⟩, -⟩ := C148_result demoMac_wf (by show (4096 : Nat) ∣ 8192; decide)
    (by show (2 * 8192 : Nat) < _; decide) run
  exact ⟨o, h⟩

/-- The fourth call fails: the fifth gives the pages back. -/
example : ∃ k', (machAt 8 4).2.step ⟨.w64, true⟩ (machAt 8 4).1 =
      .ok (k', .done (.error (Error.kernel .ringSecondary 13))) ∧
    (machAt 8 4).1.pt 1001 ≠ none ∧ k'.pt 1001 = none := by
  obtain ⟨k', h1, h2⟩ := (C148_failed (machRingDemo_wf 8) (by show (4096 : Nat) ∣ 8192; decide)
    (by show (2 * 8192 : Nat) < _; decide) (machAt_run 8 4)).1 4096000 16384 (Error.kernel .ringSecondary 13) rfl
  exact ⟨k', h1, h2 1001 ⟨by decide, by decide⟩⟩

/-- The reservation changes no page but those it takes. -/
example : ∀ q, q < 1000 → (machAt 0 1).1.pt q = (machAt 0 0).1.pt q := by
  intro q hq
  refine (C148_others (machRingDemo_wf 0) (by show (4096 : Nat) ∣ 8192; decide)
    (by show (2 * 8192 : Nat) < _; decide) (machAt_run 0 0) (k' := (machAt 0 1).1) (j' := .overwrite 8192 4096000) rfl).1.pages q
    InRoom.empty ?_
  rintro ⟨h, -⟩
  have : 1000 ≤ q := h
  omega

/-- Two rings, call by call in turns. -/
def machTwo : Nat → Kernel × MachJob × MachJob
  | 0 => (demoMac, .allocate 8192, .allocate 4096)
  | n + 1 =>
    let x := machTwo n
    match x.2.1.step ⟨.w64, true⟩ x.1 with
    | .error _ => x
    | .ok y =>
      match x.2.2.step ⟨.w64, true⟩ y.1 with
      | .error _ => x
      | .ok z => (z.1, y.2, z.2)

theorem machTwo_team (n : Nat) : ∃ ts, MachTeam ⟨.w64, true⟩ demoMac (machTwo n).1 ts ∧
    ts 0 = some (8192, (machTwo n).2.1) ∧ ts 1 = some (4096, (machTwo n).2.2) := by
  induction n with
  | zero =>
    exact ⟨_, .begin (i := 1) (len := 4096) (.begin (i := 0) (len := 8192) .start rfl
        (by show (4096 : Nat) ∣ 8192; decide) (by show (2 * 8192 : Nat) < _; decide)) rfl
        (by show (4096 : Nat) ∣ 4096; decide) (by show (2 * 4096 : Nat) < _; decide), rfl, rfl⟩
  | succ n ih =>
    obtain ⟨ts, team, h0, h1⟩ := ih
    rw [machTwo]
    split
    · exact ⟨ts, team, h0, h1⟩
    next y hy =>
      split
      · exact ⟨ts, team, h0, h1⟩
      next z hz => exact ⟨_, .step (i := 1) (.step (i := 0) team h0 hy) h1 hz, rfl, rfl⟩

/-- Both succeed. -/
example : (machTwo 4).2 = (.done (.ok 4096000), .done (.ok 8192000)) ∧ (machTwo 4).1.ports = [(3, 0), (4, 0)] :=
  ⟨rfl, rfl⟩

/-- All along, they have no page in common. -/
example (n : Nat) : ∀ q, InRoom ((machTwo n).2.1.room 4096 8192) q → ¬ InRoom ((machTwo n).2.2.room 4096 4096) q := by
  obtain ⟨ts, team, h0, h1⟩ := machTwo_team n
  exact (C148_team demoMac_wf team).2 0 1 _ _ _ _ (by decide) h0 h1

/-- The first one's next call is nothing to the second. -/
example : ∃ k', MachAround ⟨.w64, true⟩ (2000, 2) (machTwo 2).1 k' := by
  obtain ⟨ts, team, h0, h1⟩ := machTwo_team 2
  obtain ⟨runs, apart⟩ := C148_team demoMac_wf team
  obtain ⟨k1, n1, w1, p1, d1, f1, run1⟩ := runs 0 _ _ h0
  obtain ⟨k2, n2, w2, p2, d2, f2, run2⟩ := runs 1 _ _ h1
  obtain ⟨y, hy⟩ : ∃ y, (machTwo 2).2.1.step ⟨.w64, true⟩ (machTwo 2).1 = .ok y := ⟨_, rfl⟩
  have h := (C148_apart w1 w2 (by rw [p1]; exact d1) (by rw [p2]; exact d2) f1 f2 run1 run2
    (by rw [p1, p2]; exact apart 0 1 _ _ _ _ (by decide) h0 h1) (k' := y.1) (a' := y.2) hy).1
  rw [p2] at h
  exact ⟨_, h⟩

end Vmap
