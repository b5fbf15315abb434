import Verif.Proofs.Threads
import Verif.Props.World
/-
Property theorems C109 and C110: rings created by several threads at once.
-/
namespace Vmap
open Kernel Spec

/-! ### C110: ring creation, call by call -/

/-- C110: if nothing comes in between, the calls of a ring creation one after the other are
`map_ring`. -/
theorem C110_alone (t : Target) (k : Kernel) (len : Nat) :
    RingJob.run t k (.memfd len) 7 =
      (Posix.mapRing t k len).map (fun x => (x.1, RingJob.done x.2)) := by
  simp only [RingJob.run, RingJob.step, Posix.mapRing, Posix.tmpOpen, Posix.wrapFd, Posix.wrapPtr,
    bind, Except.bind, pure, Except.pure]
  rcases Posix.memfdOpen k with ⟨k1, e | fd⟩
  · rfl
  dsimp only
  rcases k1.ftruncate t fd len with ⟨k2, e | u⟩
  · rfl
  dsimp only
  rcases mulU t len 2 with e | n
  · rfl
  dsimp only
  rcases Posix.map t k2 .ringAllocate 0 n { priv := true, anon := true } none with ⟨k3, e | pg⟩
  · rfl
  dsimp only
  rcases Posix.map t k3 .ringPrimary pg len { shared := true, fixed := true } (some fd) with
    ⟨k4, e | p1⟩
  · dsimp only
    rcases Posix.unmapRing t k4 pg len with x | ⟨k5, r⟩ <;> rfl
  dsimp only
  rcases Posix.map t k4 .ringSecondary (pg + len) len { shared := true, fixed := true } (some fd)
    with ⟨k5, e | p2⟩
  · dsimp only
    rcases Posix.unmapRing t k5 pg len with x | ⟨k6, r⟩ <;> rfl
  · rfl

/-- C110: whatever happens between its calls (`ks n` is the state in which it makes call `n`), a ring
creation returns after at most seven of them. -/
theorem C110_ends (t : Target) (len : Nat) (ks ks' : Nat → Kernel) (js : Nat → RingJob)
    (h0 : js 0 = .memfd len)
    (hs : ∀ n, (js n).step t (ks n) = .ok (ks' n, js (n + 1))) : ∃ ret, js 7 = .done ret := by
  have left : ∀ n, (js n).left ≤ 7 - n := by
    intro n
    induction n with
    | zero => rw [h0]; exact Nat.le_refl _
    | succ n ih => have := RingJob.left_step (hs n); omega
  have := left 7
  cases hj : js 7 with
  | done ret => exact ⟨ret, rfl⟩
  | _ => rw [hj] at this; simp [RingJob.left] at this

-- seven calls can be needed: on this kernel the second of the two fixed `mmap`s fails
example : (RingJob.run ⟨.w64, true⟩ (demo 0b10000) (.memfd 4096) 6).map (fun x => x.2.fd) =
    .ok (some 5) := by decide +kernel

/-- C110: a call of a ring creation touches no descriptor but the creation's own; the creation keeps
the one it opened first, and has closed it when it returns. -/
theorem C110_descriptor {t : Target} {k k' : Kernel} {j j' : RingJob}
    (h : j.step t k = .ok (k', j')) :
    (∀ d, j.fd ≠ some d → j'.fd ≠ some d → k'.fds d = k.fds d) ∧
    (∀ d, j'.fd = some d → j.fd = some d ∨ (∃ len, j = .memfd len) ∧ d = k.nextFd) ∧
    (∀ d, j.fd = some d → j'.fd = none → k'.fds d = none) := by
  have keep : ∀ {fd : Nat} {a b : RingJob} {k1 : Kernel}, a.fd = some fd → b.fd = some fd →
      k1.fds = k.fds →
      (∀ d, a.fd ≠ some d → b.fd ≠ some d → k1.fds d = k.fds d) ∧
      (∀ d, b.fd = some d → a.fd = some d ∨ (∃ len, a = .memfd len) ∧ d = k.nextFd) ∧
      (∀ d, a.fd = some d → b.fd = none → k1.fds d = none) := by
    intro fd a b k1 h1 h2 h3
    refine ⟨fun d _ _ => by rw [h3], fun d hd => .inl (by rw [h1, ← h2]; exact hd), ?_⟩
    intro d _ hb
    rw [h2] at hb; cases hb
  have gone : ∀ {fd : Nat} {a b : RingJob}, a.fd = some fd → b.fd = none →
      (∀ d, a.fd ≠ some d → b.fd ≠ some d → (k.close fd).fds d = k.fds d) ∧
      (∀ d, b.fd = some d → a.fd = some d ∨ (∃ len, a = .memfd len) ∧ d = k.nextFd) ∧
      (∀ d, a.fd = some d → b.fd = none → (k.close fd).fds d = none) := by
    intro fd a b h1 h2
    refine ⟨?_, (fun d hd => by rw [h2] at hd; cases hd), ?_⟩
    · intro d hd _
      exact if_neg (fun hh => hd (by rw [h1, hh]))
    · intro d hd _
      rw [h1] at hd
      injection hd with hd
      exact if_pos hd.symm
  cases j <;> simp only [RingJob.step, bind, Except.bind, pure, Except.pure] at h
  case memfd len =>
    rcases memfd_cases k with ⟨e, he⟩ | he <;> simp only [Posix.memfdOpen, he, wrapErr] at h <;>
      cases h
    · exact ⟨fun _ _ _ => rfl, (fun d hd => by cases hd), (fun d hd => by cases hd)⟩
    · refine ⟨fun d _ hd => if_neg (fun hh => hd (by rw [hh]; rfl)), ?_, (fun d hd => by cases hd)⟩
      intro d hd
      injection hd with hd
      exact .inr ⟨⟨_, rfl⟩, hd.symm⟩
  case size len fd =>
    rcases ftruncate_cases t k fd len with ⟨e, he⟩ | ⟨f, -, -, -, he⟩ <;> rw [he] at h <;> cases h
    · exact keep rfl rfl rfl
    · exact keep rfl rfl rfl
  case reserve len fd =>
    rcases hn : mulU t len 2 with e | n <;> rw [hn] at h
    · cases h
    · dsimp only at h
      rcases hx : Posix.map t k .ringAllocate 0 n { priv := true, anon := true } none with
        ⟨k1, e | pg⟩ <;> rw [hx] at h <;> cases h <;> exact keep rfl rfl (map_fds hx)
  case first len fd pg =>
    rcases hx : Posix.map t k .ringPrimary pg len { shared := true, fixed := true } (some fd) with
      ⟨k1, e | pg⟩ <;> rw [hx] at h <;> cases h <;> exact keep rfl rfl (map_fds hx)
  case second len fd pg =>
    rcases hx : Posix.map t k .ringSecondary (pg + len) len { shared := true, fixed := true }
      (some fd) with ⟨k1, e | pg⟩ <;> rw [hx] at h <;> cases h <;> exact keep rfl rfl (map_fds hx)
  case undo len fd pg err =>
    rcases hx : Posix.unmapRing t k pg len with x | ⟨k1, r⟩ <;> rw [hx] at h <;> cases h
    exact keep rfl rfl (unmapRing_fds hx)
  case done ret =>
    cases h
    exact ⟨fun _ _ _ => rfl, (fun d hd => by cases hd), (fun d hd => by cases hd)⟩
  all_goals cases h; exact gone rfl rfl

/-! ### C109: several threads -/

section
variable {tab : SysTable} {t : Target} {k0 : Kernel} {s s' : Multi}

/-- C109 in full: whatever other threads do at the same time, every page of every map and ring that
the program holds is mapped, and nobody unmaps it.  False of the code if a `mmap` over reserved
memory can fail and unmap pages of it, as POSIX permits: `C109_full_false`. -/
def C109_full : Prop :=
  ∀ (tab : SysTable) (t : Target) (k0 : Kernel) (s : Multi), Wf t k0 →
    ThreadReach tab t k0 Any s → ∀ i x q, s.w.held i = some x →
      (∀ n j, s.tasks n = some j → j.reserved = true → j.slot ≠ i) → x.OnPage k0.page q →
      ∃ e, s.w.k.pt q = some e

/-- C109: a thread that creates a ring does not panic.  (Partial, here and below: a `mmap` over
reserved memory that fails leaves the address space as it was.) -/
theorem C109_no_panic_partial (wf : Wf t k0) (h : ThreadReach tab t k0 (Clean t) s) (i : Nat) :
    (Clean t s (.run i) → ∃ s', s.step tab t (.run i) = .ok s') ∧
    (∀ hint inf, hint + s.w.k.page < t.lim → ∃ s', s.step tab t (.begin i hint inf) = .ok s') := by
  have v := h.inv wf
  refine ⟨fun hc => ?_, fun hint inf hh => ?_⟩
  · cases hj : s.tasks i with
    | none => exact ⟨s, by simp only [Multi.step, hj]; rfl⟩
    | some j =>
      obtain ⟨k', next, -, h2, -⟩ := run_step (tab := tab) v hj hc
      exact ⟨_, h2⟩
  · cases hj : s.tasks i with
    | some j => exact ⟨s, by simp only [Multi.step, hj]; rfl⟩
    | none =>
      obtain ⟨k', r, hr⟩ := C26_ring_new_no_panic t s.w.k v.w.wf hint hh
      simp only [Ring.new, bind, Except.bind] at hr
      cases hl : (Size.withSize (Unix.systemInfo s.w.k).2).round t hint with
      | error e => rw [hl] at hr; cases hr
      | ok len => exact ⟨_, by simp only [Multi.step, hj, hl, bind, Except.bind]; rfl⟩

/-- C109: every ring that a program with threads holds is in a state that C08–C18 speak about,
whatever the other threads did while it was created and used. -/
theorem C109_rings_partial (wf : Wf t k0) (h : ThreadReach tab t k0 (Clean t) s) {i : Nat} :
    (∀ r n, s.w.held i = some (.ring r n) → RingAt t s.w.k r n) ∧
    (∀ r n, s.w.held i = some (.inf r n) → InfAt t s.w.k r n) :=
  ⟨fun _ _ hr => ((h.inv wf).w.live i _ hr).1, fun _ _ hr => ((h.inv wf).w.live i _ hr).1⟩

/-- C109: a creation that succeeds returns a ring of the capacity it was asked for, whose memory is
circular, shown nowhere else, and reachable through no descriptor. -/
theorem C109_finished_partial (wf : Wf t k0) (h : ThreadReach tab t k0 (Clean t) s) {i : Nat} {j : Task}
    (hj : s.tasks i = some j) (hc : Clean t s (.run i)) {k' : Kernel} {ptr : Nat}
    (hr : j.job.step t s.w.k = .ok (k', .done (.ok ptr))) :
    ∃ s', s.step tab t (.run i) = .ok s' ∧ s'.w.k = k' ∧ s'.tasks i = none ∧
      s'.w.held j.slot = some (j.ring ptr) ∧ k'.Circular t ptr j.len ∧ k0.page ∣ j.len ∧
      Own k' (j.ring ptr) := by
  have v := h.inv wf
  obtain ⟨k1, next, e1, e2, -⟩ := run_step (tab := tab) v hj hc
  rw [hr] at e1
  injection e1 with e1
  injection e1 with e1 e3
  subst e1; subst e3
  have ti := v.task i j hj
  rcases RingJob.step_done hr with hd | ⟨fd, hd, hk⟩
  · obtain ⟨-, ti⟩ := ti
    rw [hd] at ti
    exact ti.elim
  obtain ⟨jlen, inf, job, slot⟩ := j
  subst hd
  subst hk
  obtain ⟨hdvd, o, p, n, pl, hpt⟩ := ti
  obtain ⟨f1, f2, f3, f4, f5, f6⟩ := finish_ok v.w pl hpt
  refine ⟨_, e2, rfl, if_pos rfl, if_pos rfl, f4, by rw [← v.w.page]; exact hdvd, ?_⟩
  have hdv : s.w.k.page ∣ ptr := by rw [pl.start]; exact Nat.dvd_mul_left _ _
  have hon : ∀ q, (Task.ring ⟨jlen, inf, .finish fd (.ok ptr), slot⟩ ptr).OnPage s.w.k.page q ↔
      (area ptr jlen).OnPage s.w.k.page q := by
    intro q
    simp only [Handle.OnPage, f2, f3]
    exact Iff.rfl
  intro q e hq he
  have hq := (hon q).mp hq
  have hq2 := (onPage_ring v.w.wf.page_pos hdv q).mp hq
  obtain ⟨c1, c2⟩ := f5 q e hq2.1 hq2.2 he
  refine ⟨c1, c2, ?_⟩
  intro q' e' he' hoo
  refine (hon q').mpr ((area_page v.w.wf.page_pos pl.start pl.pages q').mpr ?_)
  apply Classical.byContradiction
  intro hn
  exact pl.mine.pages q' e' hn he' (hoo.trans (f6 q e hq he))

/-- C109: no page belongs to two things that the program holds or that a ring creation has reserved;
each of their pages is mapped and was free when the program started; all other pages are mapped
as they were then (except the page of an empty map that was dropped, see C40). -/
theorem C109_apart_partial (wf : Wf t k0) (h : ThreadReach tab t k0 (Clean t) s) :
    (∀ i j x y q, i ≠ j → s.w.held i = some x → s.w.held j = some y →
      ¬ (x.OnPage k0.page q ∧ y.OnPage k0.page q)) ∧
    (∀ i x q, s.w.held i = some x → x.OnPage k0.page q →
      k0.pt q = none ∧ ∃ e, s.w.k.pt q = some e) ∧
    (∀ q, (∀ i x, s.w.held i = some x → ¬ x.OnPage k0.page q) →
      (∀ m, m ∈ s.w.empties → ¬ OnPage k0.page m.ptr m.len q) → s.w.k.pt q = k0.pt q) := by
  have v := (h.inv wf).w
  refine ⟨fun i j x y q hne hx hy hq => v.sep i j x y hne hx hy q hq.1 hq.2,
    fun i x q hx hq => ⟨v.free i x hx q hq, ?_⟩, v.rest⟩
  exact (v.live i x hx).mapped v.wf (by rw [v.page]; exact hq)

/-- C109: a step of one thread leaves everything else that the program holds, or that a ring creation
has reserved, as it is. -/
theorem C109_others_partial (wf : Wf t k0) (h : ThreadReach tab t k0 (Clean t) s) {m : Move}
    (sane : m.Sane t s) (hc : Clean t s m) (st : s.step tab t m = .ok s') {i : Nat} {x : Handle}
    (hx : s.w.held i = some x) (hi : m.target s ≠ some i) :
    s'.w.held i = some x ∧ ∀ q, x.OnPage k0.page q → s'.w.k.pt q = s.w.k.pt q := by
  have v := h.inv wf
  rw [← v.w.page]
  have of_step : ∀ {w' tgt fd quiet}, Step t k0 s.w w' tgt fd quiet → tgt ≠ some i →
      w'.held i = some x ∧ ∀ q, x.OnPage s.w.k.page q → w'.k.pt q = s.w.k.pt q := by
    intro w' tgt fd quiet hs ht
    obtain ⟨S, fx, hS⟩ := hs.fx
    obtain ⟨g1, g2⟩ := hS i x hx ht
    exact ⟨g1, fun q hq => fx.pt q (g2 q hq)⟩
  cases m with
  | op o =>
    simp only [Multi.step, bind, Except.bind, pure, Except.pure] at st
    cases hw : s.w.step tab t o with
    | error e => rw [hw] at st; cases st
    | ok w' =>
      rw [hw] at st
      injection st with st
      subst st
      exact of_step (step_ok tab v.w sane.1 hw) hi
  | begin n hint inf =>
    simp only [Multi.step, bind, Except.bind, pure, Except.pure] at st
    split at st
    · injection st with st; subst st; exact ⟨hx, fun _ _ => rfl⟩
    · cases hr : (Size.withSize (Unix.systemInfo s.w.k).2).round t hint with
      | error e => rw [hr] at st; cases st
      | ok len =>
        rw [hr] at st
        injection st with st
        subst st
        exact ⟨hx, fun _ _ => rfl⟩
  | run n =>
    cases hj : s.tasks n with
    | none =>
      simp only [Multi.step, hj, pure, Except.pure] at st
      injection st with st; subst st; exact ⟨hx, fun _ _ => rfl⟩
    | some j =>
      obtain ⟨k', next, -, h2, h3⟩ := run_step (tab := tab) v hj hc
      rw [h2] at st
      injection st with st
      subst st
      simp only [Move.target, hj] at hi
      exact of_step h3.step hi

/-- C109: and a call of a ring creation changes no byte of it. -/
theorem C109_bytes_partial (wf : Wf t k0) (h : ThreadReach tab t k0 (Clean t) s) {n : Nat}
    (hc : Clean t s (.run n)) (st : s.step tab t (.run n) = .ok s') {i : Nat} {x : Handle}
    (hx : s.w.held i = some x) (hi : (Move.run n).target s ≠ some i) {a : Nat} (h1 : x.base ≤ a)
    (h2 : a < x.base + x.bytes) : s'.w.k.load a = s.w.k.load a := by
  have v := h.inv wf
  have hpt := (C109_others_partial wf h (m := .run n) trivial hc st hx hi).2 (a / s.w.k.page) (by
    rw [← v.w.page]; exact onPage_addr v.w.wf.page_pos h1 h2)
  have hon : x.OnPage s.w.k.page (a / s.w.k.page) := onPage_addr v.w.wf.page_pos h1 h2
  cases hj : s.tasks n with
  | none =>
    simp only [Multi.step, hj, pure, Except.pure] at st
    injection st with st; subst st; rfl
  | some j =>
    obtain ⟨k', next, -, g2, g3⟩ := run_step (tab := tab) v hj hc
    rw [g2] at st
    injection st with st
    subst st
    simp only [Move.target, hj] at hi
    obtain ⟨S, fx, hS⟩ := g3.step.fx
    have hpg : (Multi.book s.w j k' next).1.k.page = s.w.k.page := fx.page
    have hpt : (Multi.book s.w j k' next).1.k.pt (a / s.w.k.page) = s.w.k.pt (a / s.w.k.page) := hpt
    show (Multi.book s.w j k' next).1.k.load a = _
    have other : ∀ o, (∀ d f, s.w.k.fds d = some f → j.job.fd = some d → o ≠ f.obj) → o < s.w.k.fresh →
        (Multi.book s.w j k' next).1.k.data o = s.w.k.data o ∧
        (Multi.book s.w j k' next).1.k.size o = s.w.k.size o :=
      fun o h1 h2 => g3.objs o h2 (fun d f hd hf => h1 d f hf hd)
    unfold Kernel.load
    rw [hpg, hpt]
    cases he : s.w.k.pt (a / s.w.k.page) with
    | none => rfl
    | some e =>
      obtain ⟨b1, b2⟩ := v.w.wf.objs _ e he
      have hne : ∀ d f, s.w.k.fds d = some f → j.job.fd = some d → e.obj ≠ f.obj := by
        intro d f hf hd
        obtain ⟨o, A, m, hA⟩ := (v.task n j hj).mineAt v.w.wf hd
        have := m.isOpen
        rw [hf] at this
        injection this with this
        rw [this]
        refine m.pages _ e (fun hq => ?_) he
        obtain ⟨r1, y, r2, r3⟩ := hA _ hq
        rw [if_pos r1] at hi
        rw [v.w.page] at r3 hon
        exact v.w.sep i j.slot x y (fun hh => hi (by rw [hh])) hx r2 _ hon r3
      obtain ⟨d1, d2⟩ := other e.obj hne b1
      have hb : (Multi.book s.w j k' next).1.k.backed e = s.w.k.backed e := by
        simp only [backed, hpg, d2]
      have hcell : (Multi.book s.w j k' next).1.k.data
          ((Multi.book s.w j k' next).1.k.cell e (a % s.w.k.page)).1
          ((Multi.book s.w j k' next).1.k.cell e (a % s.w.k.page)).2 =
          s.w.k.data (s.w.k.cell e (a % s.w.k.page)).1 (s.w.k.cell e (a % s.w.k.page)).2 := by
        simp only [cell, hpg]
        cases hcp : e.copy with
        | none => simp only []; rw [d1]
        | some c =>
          simp only []
          rw [(other c (fun d f hf _ => fun hh => (v.w.wf.excl _ e c he hcp).2.1 d f hf hh.symm)
            (b2 c hcp)).1]
      simp only [hb, hcell]

/-- C109: when the program holds nothing and no creation has memory reserved, the address space is as it
was (for programs that drop no empty map, see C75); creations that failed have left nothing. -/
theorem C109_all_dropped_partial (wf : Wf t k0) (h : ThreadReach tab t k0 (Clean t) s)
    (hall : ∀ i, s.w.held i = none) (he : s.w.empties = []) : s.w.k.pt = k0.pt := by
  funext q
  refine (h.inv wf).w.rest q (fun i x hx => ?_) (fun m hm => ?_)
  · rw [hall i] at hx; cases hx
  · rw [he] at hm; cases hm

end

/-! The counterexample, and programs that meet the hypotheses -/

/-- The demo kernel; all `mmap`s that have a choice choose page `3000 + 10 * tick`, except call 4,
which chooses page 3020.  Call `bad` fails, and unmaps the pages it was to replace if `clobber` holds. -/
def demoThreads (bad : Nat) (clobber : Bool) : Kernel :=
  { demo 0 with oracle := fun n => ⟨n != bad, 12, if n = 4 then 3020 else 3000 + 10 * n, clobber⟩ }

theorem demoThreads_wf {t : Target} (bad : Nat) (clobber : Bool) : Wf t (demoThreads bad clobber) :=
  { demo_wf (t := t) 0 with }

/-- One thread creates a ring; the first of the two fixed `mmap`s fails and leaves a hole; another
thread's allocation lands in the hole; the first thread cleans up. -/
def demoRace : List Move :=
  [.begin 0 10 false, .run 0, .run 0, .run 0, .run 0,
   .op (.alloc (Options.new.write.setLen (.exact 100))), .run 0, .run 0]

/-- The state after a move. -/
def Multi.next! (s : Multi) (m : Move) : Multi :=
  match s.step demoTab ⟨.w64, true⟩ m with
  | .ok s => s
  | .error _ => s

theorem Multi.next!_eq {s : Multi} {m : Move} (h : (s.step demoTab ⟨.w64, true⟩ m).isOk = true) :
    s.step demoTab ⟨.w64, true⟩ m = .ok (s.next! m) := by
  unfold Multi.next!
  cases hs : s.step demoTab ⟨.w64, true⟩ m with
  | ok w' => rfl
  | error e => rw [hs] at h; cases h

/-- The state after a list of moves. -/
def Multi.all! (s : Multi) (ms : List Move) : Multi := ms.foldl Multi.next! s

/-- The moves run, and their arguments are as `Move.Sane` wants them (decidable, for allocations of an
exact length and ring creations); if `c` holds, no failing `mmap` unmaps anything. -/
def Multi.fine (c : Bool) (s : Multi) : List Move → Bool
  | [] => true
  | m :: ms => (s.step demoTab ⟨.w64, true⟩ m).isOk && (match m with
      | .op (.alloc o) =>
        match o.len with
        | .exact l => decide (o.offset % s.w.k.page + l < Target.lim ⟨.w64, true⟩)
        | _ => false
      | .op _ => false
      | .begin _ hint _ => decide (hint + s.w.k.page < Target.lim ⟨.w64, true⟩)
      | .run _ => true) && (!c || !s.w.k.now.clobber) && (s.next! m).fine c ms

theorem Multi.fine_reach {k0 : Kernel} (c : Bool) :
    ∀ (ms : List Move) (s : Multi), s.fine c ms = true →
      ThreadReach demoTab ⟨.w64, true⟩ k0 (if c then Clean ⟨.w64, true⟩ else Any) s →
      ThreadReach demoTab ⟨.w64, true⟩ k0 (if c then Clean ⟨.w64, true⟩ else Any) (s.all! ms) := by
  intro ms
  induction ms with
  | nil => intro s _ h; exact h
  | cons m ms ih =>
    intro s hf h
    simp only [Multi.fine, Bool.and_eq_true] at hf
    obtain ⟨⟨⟨f1, f2⟩, f3⟩, f4⟩ := hf
    refine ih (s.next! m) f4 (.step (m := m) h ?_ ?_ (Multi.next!_eq f1))
    · cases m with
      | op o =>
        cases o with
        | alloc o =>
          refine ⟨?_, fun _ _ _ => ⟨(fun _ h => by cases h), fun h => absurd rfl h⟩⟩
          dsimp only at f2
          show AllocFits _ _ _ o.len
          split at f2
          · rename_i l hl
            rw [hl]
            have := of_decide_eq_true f2
            exact this
          · cases f2
        | _ => cases f2
      | begin i hint inf =>
        have := of_decide_eq_true f2
        exact this
      | run i => trivial
    · cases c with
      | false => trivial
      | true => exact clean_of_clobber (by simpa using f3) m

theorem Multi.all!_tasks {n : Nat} : ∀ (ms : List Move) (s : Multi), (∀ m, m ∈ ms →
    (∃ o, m = .op o) ∨ (∃ i hint inf, i ≠ n ∧ m = .begin i hint inf) ∨ ∃ i, i ≠ n ∧ m = .run i) →
    (s.all! ms).tasks n = s.tasks n := by
  intro ms
  induction ms with
  | nil => intro s _; rfl
  | cons m ms ih =>
    intro s h
    refine (ih (s.next! m) (fun x hx => h x (List.mem_cons_of_mem _ hx))).trans ?_
    unfold Multi.next!
    split
    · rename_i s' hs
      rcases h m List.mem_cons_self with ⟨o, rfl⟩ | ⟨i, hint, inf, hi, rfl⟩ | ⟨i, hi, rfl⟩ <;>
        simp only [Multi.step, bind, Except.bind, pure, Except.pure] at hs
      · cases hw : s.w.step demoTab ⟨.w64, true⟩ o with
        | error e => rw [hw] at hs; cases hs
        | ok w => rw [hw] at hs; cases hs; rfl
      · split at hs
        · cases hs; rfl
        · cases hr : (Size.withSize (Unix.systemInfo s.w.k).2).round ⟨.w64, true⟩ hint with
          | error e => rw [hr] at hs; cases hs
          | ok len => rw [hr] at hs; cases hs; exact if_neg hi.symm
      · split at hs
        · cases hs; rfl
        · rename_i j hj
          cases hr : j.job.step ⟨.w64, true⟩ s.w.k with
          | error e => rw [hr] at hs; cases hs
          | ok x => rw [hr] at hs; cases hs; exact if_neg hi.symm
    · rfl

theorem C109_full_false : ¬ C109_full := by
  intro hall
  have hr := Multi.fine_reach (k0 := demoThreads 3 true) false demoRace
    (Multi.start (demoThreads 3 true)) (by decide +kernel) .start
  have hm : ∃ m, ((Multi.start (demoThreads 3 true)).all! demoRace).w.held 1 = some (.map m) ∧
      m.ptr = 3020 * 4096 ∧ m.len = 100 := by
    have : (match ((Multi.start (demoThreads 3 true)).all! demoRace).w.held 1 with
      | some (.map m) => decide (m.ptr = 3020 * 4096 ∧ m.len = 100)
      | _ => false) = true := by decide +kernel
    split at this
    · rename_i m hm
      exact ⟨m, hm, (of_decide_eq_true this)⟩
    · cases this
  obtain ⟨m, h1, h2, h3⟩ := hm
  have free : ∀ n, ((Multi.start (demoThreads 3 true)).all! demoRace).tasks n = none := by
    intro n
    by_cases hn : n = 0
    · subst hn
      have h0 : (((Multi.start (demoThreads 3 true)).all! demoRace).tasks 0).isSome = false := by
        decide +kernel
      cases hj : ((Multi.start (demoThreads 3 true)).all! demoRace).tasks 0 with
      | none => rfl
      | some j => rw [hj] at h0; cases h0
    · refine (Multi.all!_tasks demoRace _ ?_).trans rfl
      have : ∀ m, m ∈ demoRace →
          (∃ o, m = .op o) ∨ (∃ hint inf, m = .begin 0 hint inf) ∨ m = .run 0 := by
        intro m hm
        simp only [demoRace, List.mem_cons, List.not_mem_nil, or_false] at hm
        rcases hm with rfl | rfl | rfl | rfl | rfl | rfl | rfl | rfl
        · exact .inr (.inl ⟨_, _, rfl⟩)
        all_goals first | exact .inr (.inr rfl) | exact .inl ⟨_, rfl⟩
      intro m hm
      rcases this m hm with h | ⟨a, b, h⟩ | h
      · exact .inl h
      · exact .inr (.inl ⟨0, a, b, fun hh => hn hh.symm, h⟩)
      · exact .inr (.inr ⟨0, fun hh => hn hh.symm, h⟩)
  have hon : (Handle.map m).OnPage 4096 3020 :=
    ⟨show 3020 * 4096 < m.ptr + m.len by omega, show m.ptr < (3020 + 1) * 4096 by omega⟩
  obtain ⟨e, he⟩ := hall demoTab ⟨.w64, true⟩ _ _ (demoThreads_wf 3 true) hr 1 _ 3020 h1
    (fun n j hj => by rw [free n] at hj; cases hj) hon
  have hn : (((Multi.start (demoThreads 3 true)).all! demoRace).w.k.pt 3020).isSome = false := by
    decide +kernel
  rw [he] at hn; cases hn

/-- Two threads create rings, call by call in turn, while the program allocates memory; the first of
them fails (call 6, without unmapping anything), the second returns its ring. -/
def demoTwo : List Move :=
  [.begin 0 10 false, .begin 1 5000 true, .run 0, .run 1, .run 0, .run 1, .run 0, .run 1, .run 0,
   .op (.alloc (Options.new.write.setLen (.exact 100))), .run 1, .run 0, .run 1]

/-- Non-vacuity: this program meets the hypotheses of C109, with a creation about to return its ring … -/
example : Wf ⟨.w64, true⟩ (demoThreads 6 false) ∧
    ∃ s : Multi, ThreadReach demoTab ⟨.w64, true⟩ (demoThreads 6 false) (Clean ⟨.w64, true⟩) s ∧
    (∀ m, Clean ⟨.w64, true⟩ s m) ∧ (∃ x, s.w.held 2 = some x) ∧
    ∃ j k', s.tasks 1 = some j ∧ j.slot = 1 ∧ j.len = 8192 ∧
      j.job.step ⟨.w64, true⟩ s.w.k = .ok (k', .done (.ok (3050 * 4096))) := by
  refine ⟨demoThreads_wf 6 false, ?_⟩
  have hr := Multi.fine_reach (k0 := demoThreads 6 false) true demoTwo
    (Multi.start (demoThreads 6 false)) (by decide +kernel) .start
  refine ⟨_, hr, clean_of_clobber (by decide +kernel), ?_, ?_⟩
  · exact Option.isSome_iff_exists.mp (by decide +kernel)
  · have : (match ((Multi.start (demoThreads 6 false)).all! demoTwo).tasks 1 with
      | some j => decide (j.slot = 1 ∧ j.len = 8192) && (match j.job with
        | .finish _ (.ok p) => decide (p = 3050 * 4096)
        | _ => false)
      | _ => false) = true := by decide +kernel
    split at this
    · rename_i j hj
      simp only [Bool.and_eq_true, decide_eq_true_eq] at this
      obtain ⟨⟨h1, h2⟩, h3⟩ := this
      split at h3
      · rename_i fd p hjob
        simp only [decide_eq_true_eq] at h3
        subst h3
        exact ⟨j, _, hj, h1, h2, by rw [hjob]; rfl⟩
      · cases h3
    · cases this

/-- … and, two calls later, holding the ring and the allocated memory, the other creation having
failed. -/
example : Wf ⟨.w64, true⟩ (demoThreads 6 false) ∧
    ∃ s : Multi, ThreadReach demoTab ⟨.w64, true⟩ (demoThreads 6 false) (Clean ⟨.w64, true⟩) s ∧
    (∃ r, s.w.held 1 = some (.inf r 0)) ∧ (∃ m, s.w.held 2 = some (.map m)) ∧
    s.w.held 0 = none ∧ s.tasks 0 = none ∧ s.tasks 1 = none := by
  refine ⟨demoThreads_wf 6 false, ?_⟩
  have hr := Multi.fine_reach (k0 := demoThreads 6 false) true (demoTwo ++ [.run 1, .run 0])
    (Multi.start (demoThreads 6 false)) (by decide +kernel) .start
  refine ⟨_, hr, ?_, ?_, ?_, ?_, ?_⟩
  · have : (match ((Multi.start (demoThreads 6 false)).all! (demoTwo ++ [.run 1, .run 0])).w.held 1 with
      | some (.inf _ n) => decide (n = 0)
      | _ => false) = true := by decide +kernel
    split at this
    · rename_i r n hj
      simp only [decide_eq_true_eq] at this
      subst this
      exact ⟨r, hj⟩
    · cases this
  · have : (match ((Multi.start (demoThreads 6 false)).all! (demoTwo ++ [.run 1, .run 0])).w.held 2 with
      | some (.map _) => true
      | _ => false) = true := by decide +kernel
    split at this
    · rename_i r hj
      exact ⟨r, hj⟩
    · cases this
  · exact Option.isNone_iff_eq_none.mp (by decide +kernel)
  · exact Option.isNone_iff_eq_none.mp (by decide +kernel)
  · exact Option.isNone_iff_eq_none.mp (by decide +kernel)

end Vmap
