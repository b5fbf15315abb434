import Verif.Proofs.Darwin
import Verif.Spec.MachJob
/- Helper lemmas for C148: ring creation on macOS, call by call. -/
namespace Vmap
open Kernel Spec

/-- The pages of `r` are mapped, and show memory younger than `k0` that nobody else knows. -/
def Held (k0 k : Kernel) (r : Nat × Nat) : Prop :=
  ∀ q, InRoom r q → ∃ e, k.pt q = some e ∧ e.copy = none ∧ k0.fresh ≤ e.obj ∧ Secret k r e.obj

structure MachFine (t : Target) (k0 k : Kernel) : Prop where
  wf : Wf t k
  page : k.page = k0.page
  fresh : k0.fresh ≤ k.fresh

theorem InRoom.empty {q : Nat} : ¬ InRoom (0, 0) q := by
  rintro ⟨_, h⟩
  dsimp only at h
  omega

theorem held_empty (k0 k : Kernel) : Held k0 k (0, 0) := fun _ h => (InRoom.empty h).elim

/-- One's own call keeps what one has secret. -/
theorem held_acts {t : Target} {k0 k k' : Kernel} {r r' : Nat × Nat} (wf : Wf t k) (old : k0.fresh ≤ k.fresh)
    (held : Held k0 k r) (acts : MachActs r r' k k') (mapped : ∀ q, InRoom r' q → ∃ e, k'.pt q = some e ∧ e.copy = none) :
    Held k0 k' r' := by
  intro q hq
  obtain ⟨e, he, hc⟩ := mapped q hq
  have mine : ∀ q0 e0, InRoom r q0 → k.pt q0 = some e0 → k0.fresh ≤ e0.obj ∧ Secret k' r' e0.obj := by
    intro q0 e0 h0 p0
    obtain ⟨e1, p1, -, f1, s1⟩ := held q0 h0
    rw [p0] at p1
    cases p1
    refine ⟨f1, ⟨?_, ?_, ?_⟩⟩
    · intro q' e' he' ho
      rcases acts.shown q' e' he' with h | ⟨h, -⟩
      · rcases acts.gone q' (s1.pages q' e' h ho) with g | g
        · exact g
        · rw [he'] at g; cases g
      · exact h
    · rw [acts.fds]; exact s1.fds
    · rw [acts.names]; exact s1.names
  refine ⟨e, he, hc, ?_⟩
  rcases acts.shown q e he with h | ⟨-, -, h | ⟨q0, e0, h0, p0, e0eq⟩⟩
  · rcases acts.got q hq with g | g
    · exact mine q e g h
    · rw [h] at g; cases g
  · refine ⟨by omega, ⟨?_, ?_, ?_⟩⟩
    · intro q' e' he' ho
      rcases acts.shown q' e' he' with h' | ⟨h', -⟩
      · obtain ⟨w1, w2⟩ := wf.objs q' e' h'
        rcases ho with ho | ho
        · omega
        · have := w2 _ ho; omega
      · exact h'
    · intro d f hf
      rw [acts.fds] at hf
      have := (wf.fds d f hf).1
      omega
    · intro n x hx
      rw [acts.names] at hx
      have := wf.names n x hx
      omega
  · have := mine q0 e0 h0 p0
    rwa [e0eq] at this

/-- Others keep what one has secret. -/
theorem held_around {t : Target} {k0 k k' : Kernel} {r : Nat × Nat} (held : Held k0 k r) (a : MachAround t r k k') :
    Held k0 k' r := by
  intro q hq
  obtain ⟨e, p, c, f, s⟩ := held q hq
  exact ⟨e, (a.pages q hq).trans p, c, f, (a.memory q e hq p).2.2 s⟩

/-- The call of one creation, seen from another. -/
theorem acts_around {t : Target} {k1 k2 k k' : Kernel} {r r' x : Nat × Nat} (wf : Wf t k) (wf' : Wf t k')
    (acts : MachActs r r' k k') (_held : Held k1 k r) (other : Held k2 k x)
    (apart : ∀ q, InRoom r q → ¬ InRoom x q) :
    MachAround t x k k' ∧ ∀ q, InRoom r' q → ¬ InRoom x q := by
  have h' : ∀ q, InRoom r' q → ¬ InRoom x q := by
    intro q h1 h2
    rcases acts.got q h1 with g | g
    · exact apart q g h2
    · obtain ⟨e, p, -⟩ := other q h2
      rw [g] at p; cases p
  refine ⟨⟨wf', acts.page, acts.fresh, ?_, ?_, ?_⟩, h'⟩
  · rcases acts.ports with h | ⟨e, h⟩
    · rw [h]; exact List.prefix_refl _
    · rw [h]; exact List.prefix_append _ _
  · intro q hq
    exact acts.pages q (fun h => apart q h hq) (fun h => h' q h hq)
  · intro q e hq p
    obtain ⟨e1, p1, -, -, s1⟩ := other q hq
    rw [p] at p1
    cases p1
    have ho := (wf.objs q e p).1
    obtain ⟨m1, m2⟩ := acts.memory e.obj ho
    refine ⟨m1, m2, fun _ => ⟨?_, ?_, ?_⟩⟩
    · intro q' e' he' hoo
      rcases acts.shown q' e' he' with h | ⟨h, hcp, h0 | ⟨q0, e0, h0, p0, eq⟩⟩
      · exact s1.pages q' e' h hoo
      · rcases hoo with hoo | hoo
        · omega
        · rw [hcp] at hoo; cases hoo
      · rcases hoo with hoo | hoo
        · exact (apart q0 h0 (s1.pages q0 e0 p0 (.inl (eq.trans hoo)))).elim
        · rw [hcp] at hoo; cases hoo
    · rw [acts.fds]; exact s1.fds
    · rw [acts.names]; exact s1.names

/-- The errors of `map_ring`. -/
def MachErr (e : Error) : Prop :=
  ∃ code, code ≠ 0 ∧ (e = Error.kernel .ringAllocate code ∨ e = Error.kernel .ringPrimary code ∨
    e = Error.kernel .ringEntry code ∨ e = Error.kernel .ringSecondary code)

/-- The room is where it may be. -/
structure MachPlace (t : Target) (u n addr : Nat) : Prop where
  aligned : addr = addr / u * u
  zero : addr / u ≠ 0
  fits : (addr / u + 2 * n) * u < t.lim

/-- The first `n` pages show the new memory `o`. -/
def MachHalf (k : Kernel) (p n : Nat) (o : Obj) : Prop :=
  ∀ q, p ≤ q → q < p + n → k.pt q = some ⟨o, q - p, Unix.protRW, true, true, none, false⟩ ∧
    k.size o = n * k.page ∧ ∀ i, k.data o i = 0

/-- What is known when a creation of a ring of `n` pages has got to a point. -/
def MachOk (t : Target) (k : Kernel) (n : Nat) : MachJob → Prop
  | .allocate len => len = n * k.page
  | .overwrite len addr => len = n * k.page ∧ MachPlace t k.page n addr
  | .entry len addr => len = n * k.page ∧ MachPlace t k.page n addr ∧ ∃ o, MachHalf k (addr / k.page) n o
  | .second len addr port => len = n * k.page ∧ MachPlace t k.page n addr ∧ 0 < n ∧
      ∃ o, MachHalf k (addr / k.page) n o ∧ k.ports[port]? = some (o, 0)
  | .undo addr full err => full = 2 * (n * k.page) ∧ MachPlace t k.page n addr ∧ MachErr err
  | .done (.ok addr) => MachPlace t k.page n addr ∧ 0 < n ∧ ∃ o,
      ∀ q, addr / k.page ≤ q → q < addr / k.page + 2 * n →
        k.pt q = some ⟨o, (q - addr / k.page) % n, Unix.protRW, true, true, none, false⟩ ∧
        k.size o = n * k.page ∧ ∀ i, k.data o i = 0
  | .done (.error e) => MachErr e

/-- Number of calls left. -/
def MachJob.rank : MachJob → Nat
  | .allocate _ => 5
  | .overwrite _ _ => 4
  | .entry _ _ => 3
  | .second _ _ _ => 2
  | .undo _ _ _ => 1
  | .done _ => 0

theorem room_eq {u : Nat} (hu : 0 < u) (n : Nat) : 2 * (n * u) / u = 2 * n := by
  rw [← Nat.mul_assoc]; exact Nat.mul_div_cancel _ hu

/-- A call that changes nothing, with the same room before and after. -/
theorem acts_idle (k : Kernel) (ev : Event) (r : Nat × Nat) : MachActs r r k (Darwin.idle k ev) :=
  ⟨rfl, Nat.le_refl _, rfl, rfl, rfl, fun _ _ => ⟨rfl, rfl⟩, .inl rfl, fun _ _ _ => rfl, fun _ h => .inl h,
    fun _ h => .inl h, fun _ _ h => .inl h⟩

/-- A step of a creation that has got to `j`. -/
structure MachOwn (t : Target) (k0 k : Kernel) (n : Nat) (j : MachJob) (k' : Kernel) (j' : MachJob) : Prop where
  fine : MachFine t k0 k'
  held : Held k0 k' (j'.room k0.page (n * k0.page))
  ok : MachOk t k' n j'
  acts : MachActs (j.room k0.page (n * k0.page)) (j'.room k0.page (n * k0.page)) k k'
  rank : j'.rank + 1 ≤ j.rank ∨ ∃ r, j = .done r

theorem machOwn {t : Target} {k0 k k' : Kernel} {n : Nat} {j j' : MachJob} (fine : MachFine t k0 k)
    (held : Held k0 k (j.room k0.page (n * k0.page))) (wf : Wf t k') (ok : MachOk t k' n j')
    (acts : MachActs (j.room k0.page (n * k0.page)) (j'.room k0.page (n * k0.page)) k k')
    (mapped : ∀ q, InRoom (j'.room k0.page (n * k0.page)) q → ∃ e, k'.pt q = some e ∧ e.copy = none)
    (rank : j'.rank + 1 ≤ j.rank ∨ ∃ r, j = .done r) : MachOwn t k0 k n j k' j' :=
  ⟨⟨wf, acts.page.trans fine.page, Nat.le_trans fine.fresh acts.fresh⟩,
    held_acts fine.wf fine.fresh held acts mapped, ok, acts, rank⟩

theorem held_mapped {k0 k k' : Kernel} {r : Nat × Nat} (held : Held k0 k r) (pt : k'.pt = k.pt) :
    ∀ q, InRoom r q → ∃ e, k'.pt q = some e ∧ e.copy = none := by
  intro q hq
  obtain ⟨e, h1, h2, -⟩ := held q hq
  exact ⟨e, by rw [pt]; exact h1, h2⟩

theorem mach_allocate {t : Target} {k0 k : Kernel} {n len : Nat} (fine : MachFine t k0 k)
    (hl : 2 * (n * k0.page) < t.lim) (ok : MachOk t k n (.allocate len)) :
    ∃ k' j', (MachJob.allocate len).step t k = .ok (k', j') ∧ MachOwn t k0 k n (.allocate len) k' j' := by
  have hu := fine.wf.page_pos
  have hlen : len = n * k.page := ok
  subst hlen
  have hmul : mulU t 2 (n * k.page) = .ok (2 * (n * k.page)) := Posix.mulU_ok (by rw [fine.page]; exact hl)
  have ha : 2 * (n * k.page) = (2 * n) * k.page := (Nat.mul_assoc _ _ _).symm
  rcases Darwin.vmAllocate_cases t k (n := 2 * n) hu with ⟨e, e1⟩ | ⟨p, hp0, hfit, hfree, e1⟩
  · rw [← ha] at e1
    refine ⟨?_, .done (.error (Error.kernel .ringAllocate e)), ?_, ?_⟩
    · exact Darwin.idle k ⟨.vmAllocate (2 * (n * k.page)), .error e⟩
    · simp only [MachJob.step, hmul, bind, Except.bind, e1]
      rfl
    · have he : e ≠ 0 := by
        have : (k.vmAllocate t (2 * (n * k.page))).2 = .error e := by rw [e1]
        simp only [vmAllocate, record, vmAllocateCore] at this
        split at this
        · cases this
        · injection this with this
          omega
      exact machOwn fine (held_empty _ _) (Darwin.idle_same fine.wf _).2 ⟨e, he, .inl rfl⟩ (acts_idle _ _ _)
        (fun q h => (InRoom.empty h).elim) (.inl (by simp [MachJob.rank]))
  · rw [← ha] at e1
    have hdiv : p * k.page / k.page = p := Nat.mul_div_cancel _ hu
    have hroom : (MachJob.overwrite (n * k.page) (p * k.page)).room k0.page (n * k0.page) = (p, 2 * n) := by
      rw [MachJob.room, ← fine.page, hdiv, room_eq hu]
    refine ⟨Darwin.fill k p (2 * n) ⟨.vmAllocate (2 * (n * k.page)), .ok (p * k.page)⟩,
      .overwrite (n * k.page) (p * k.page), ?_, ?_⟩
    · simp only [MachJob.step, hmul, bind, Except.bind, e1]
      rfl
    · refine machOwn fine (held_empty _ _) (Darwin.fill_wf fine.wf hp0 hfit _) ⟨rfl, ?_⟩ ?_ ?_
        (.inl (by simp [MachJob.rank]))
      · exact ⟨by show p * k.page = p * k.page / k.page * k.page; rw [hdiv],
          by show p * k.page / k.page ≠ 0; rw [hdiv]; exact hp0,
          by show (p * k.page / k.page + 2 * n) * k.page < t.lim; rw [hdiv]; exact hfit⟩
      · rw [hroom]
        have kp := Darwin.fill_keeps k p (2 * n) ⟨.vmAllocate (2 * (n * k.page)), .ok (p * k.page)⟩
        refine ⟨rfl, Nat.le_succ _, rfl, rfl, rfl, fun o ho => ⟨kp.data o ho, kp.size o ho⟩, .inl rfl,
          fun q _ hq => if_neg hq, fun q hq => .inr (hfree q hq.1 hq.2), fun q hq => (InRoom.empty hq).elim, ?_⟩
        intro q e he
        have he : (if p ≤ q ∧ q < p + 2 * n then some _ else k.pt q) = some e := he
        split at he
        · rename_i hq
          cases he
          exact .inr ⟨hq, rfl, .inl (Nat.le_refl _)⟩
        · exact .inl he
      · rw [hroom]
        intro q hq
        exact ⟨_, if_pos hq, rfl⟩

theorem mach_overwrite {t : Target} {k0 k : Kernel} {n len addr : Nat} (fine : MachFine t k0 k)
    (hl : 2 * (n * k0.page) < t.lim) (ok : MachOk t k n (.overwrite len addr))
    (held : Held k0 k ((MachJob.overwrite len addr).room k0.page (n * k0.page))) :
    ∃ k' j', (MachJob.overwrite len addr).step t k = .ok (k', j') ∧ MachOwn t k0 k n (.overwrite len addr) k' j' := by
  have hu := fine.wf.page_pos
  obtain ⟨hlen, place⟩ := ok
  subst hlen
  have hmul : mulU t 2 (n * k.page) = .ok (2 * (n * k.page)) := Posix.mulU_ok (by rw [fine.page]; exact hl)
  have hr : ∀ a, (a / k0.page, 2 * (n * k0.page) / k0.page) = (a / k.page, 2 * n) := by
    intro a; rw [← fine.page, room_eq hu]
  generalize hp : addr / k.page = p at place
  have haddr : addr = p * k.page := by have := place.aligned; rw [hp] at this; exact this
  have hroom : (MachJob.overwrite (n * k.page) addr).room k0.page (n * k0.page) = (p, 2 * n) := by
    rw [MachJob.room, hr, hp]
  rcases Darwin.vmAllocateAt_cases t k (p := p) (n := n) hu with ⟨e, e1⟩ | e1
  · rw [← haddr] at e1
    have hroom' : (MachJob.undo addr (2 * (n * k.page)) (Error.kernel .ringPrimary e)).room k0.page (n * k0.page) =
        (p, 2 * n) := by rw [MachJob.room, hr, hp]
    refine ⟨Darwin.idle k ⟨.vmAllocateAt addr (n * k.page), .error e⟩,
      .undo addr (2 * (n * k.page)) (Error.kernel .ringPrimary e), ?_, ?_⟩
    · simp only [MachJob.step, e1, hmul, bind, Except.bind]
      rfl
    · have he : e ≠ 0 := by
        have : (k.vmAllocateAt t addr (n * k.page)).2 = .error e := by rw [e1]
        simp only [vmAllocateAt, record, vmAllocateAtCore] at this
        split at this
        · cases this
        · injection this with this
          omega
      refine machOwn fine held (Darwin.idle_same fine.wf _).2 ⟨rfl, place, e, he, .inr (.inl rfl)⟩ ?_ ?_
        (.inl (by simp [MachJob.rank]))
      · rw [hroom, hroom']; exact acts_idle _ _ _
      · rw [hroom']; rw [hroom] at held; exact held_mapped held rfl
  · rw [← haddr] at e1
    have hroom' : (MachJob.entry (n * k.page) addr).room k0.page (n * k0.page) = (p, 2 * n) := by
      rw [MachJob.room, hr, hp]
    have hz : p ≠ 0 := by have := place.zero; rwa [hp] at this
    have hfit : (p + 2 * n) * k.page < t.lim := by have := place.fits; rwa [hp] at this
    refine ⟨Darwin.fill k p n ⟨.vmAllocateAt addr (n * k.page), .ok 0⟩, .entry (n * k.page) addr, ?_, ?_⟩
    · simp only [MachJob.step, e1]
      rfl
    · refine machOwn fine held (Darwin.fill_wf fine.wf hz
        (Nat.lt_of_le_of_lt (Nat.mul_le_mul_right _ (by omega)) hfit) _) ⟨rfl, place, k.fresh, ?_⟩ ?_ ?_
        (.inl (by simp [MachJob.rank]))
      · intro q h1 h2
        have hp' : addr / (Darwin.fill k p n ⟨.vmAllocateAt addr (n * k.page), .ok 0⟩).page = p := hp
        rw [hp'] at h1 h2 ⊢
        refine ⟨?_, if_pos rfl, fun i => if_pos rfl⟩
        show (if p ≤ q ∧ q < p + n then _ else k.pt q) = _
        rw [if_pos ⟨h1, h2⟩, Nat.zero_add]
      · rw [hroom, hroom']
        have kp := Darwin.fill_keeps k p n ⟨.vmAllocateAt addr (n * k.page), .ok 0⟩
        refine ⟨rfl, Nat.le_succ _, rfl, rfl, rfl, fun o ho => ⟨kp.data o ho, kp.size o ho⟩, .inl rfl,
          fun q _ hq => if_neg (fun h => hq ⟨h.1, by show q < p + 2 * n; omega⟩), fun q hq => .inl hq, fun q hq => .inl hq, ?_⟩
        intro q e he
        have he : (if p ≤ q ∧ q < p + n then some _ else k.pt q) = some e := he
        split at he
        · rename_i hq
          cases he
          exact .inr ⟨⟨hq.1, by show q < p + 2 * n; omega⟩, rfl, .inl (Nat.le_refl _)⟩
        · exact .inl he
      · rw [hroom']
        rw [hroom] at held
        intro q hq
        by_cases hin : p ≤ q ∧ q < p + n
        · exact ⟨_, if_pos hin, rfl⟩
        · obtain ⟨e, g1, g2, -⟩ := held q hq
          exact ⟨e, (if_neg hin).trans g1, g2⟩

theorem mach_entry {t : Target} {k0 k : Kernel} {n len addr : Nat} (fine : MachFine t k0 k)
    (hl : 2 * (n * k0.page) < t.lim) (ok : MachOk t k n (.entry len addr))
    (held : Held k0 k ((MachJob.entry len addr).room k0.page (n * k0.page))) :
    ∃ k' j', (MachJob.entry len addr).step t k = .ok (k', j') ∧ MachOwn t k0 k n (.entry len addr) k' j' := by
  have hu := fine.wf.page_pos
  obtain ⟨hlen, place, o, half⟩ := ok
  subst hlen
  have hmul : mulU t 2 (n * k.page) = .ok (2 * (n * k.page)) := Posix.mulU_ok (by rw [fine.page]; exact hl)
  have hr : ∀ a, (a / k0.page, 2 * (n * k0.page) / k0.page) = (a / k.page, 2 * n) := by
    intro a; rw [← fine.page, room_eq hu]
  have haddr : addr = addr / k.page * k.page := place.aligned
  rcases Darwin.memoryEntry_cases k (p := addr / k.page) (n := n) hu with ⟨e, e1⟩ | ⟨x, hx, hn, e1⟩
  · rw [← haddr] at e1
    refine ⟨Darwin.idle k ⟨.memoryEntry addr (n * k.page), .error e⟩,
      .undo addr (2 * (n * k.page)) (Error.kernel .ringEntry e), ?_, ?_⟩
    · simp only [MachJob.step, e1, hmul, bind, Except.bind]
      rfl
    · have he : e ≠ 0 := by
        have : (k.memoryEntry (n * k.page) addr).2 = .error e := by rw [e1]
        simp only [memoryEntry, record, memoryEntryCore] at this
        split at this
        · split at this
          · cases this
          · injection this with this
            omega
        · injection this with this
          omega
      exact machOwn fine held (Darwin.idle_same fine.wf _).2 ⟨rfl, place, e, he, .inr (.inr (.inl rfl))⟩ (acts_idle _ _ _)
        (held_mapped held rfl) (.inl (by simp [MachJob.rank]))
  · rw [← haddr] at e1
    have hx' := (half (addr / k.page) (Nat.le_refl _) (by omega)).1
    rw [hx] at hx'
    cases hx'
    rw [Nat.sub_self] at e1
    refine ⟨?_, .second (n * k.page) addr k.ports.length, ?_, ?_⟩
    · exact { Darwin.idle k ⟨.memoryEntry addr (n * k.page), .ok k.ports.length⟩ with ports := k.ports ++ [(o, 0)] }
    · simp only [MachJob.step, e1]
      rfl
    · refine machOwn fine held
        (fine.wf.sub rfl (fun _ _ h => h) (fun _ _ h => h) (fun _ _ h => h) (Nat.le_refl _) (Nat.le_refl _))
        ⟨rfl, place, hn, o, half, ?_⟩ ?_ (held_mapped held rfl) (.inl (by simp [MachJob.rank]))
      · show (k.ports ++ [(o, 0)])[k.ports.length]? = _
        simp
      · exact ⟨rfl, Nat.le_refl _, rfl, rfl, rfl, fun _ _ => ⟨rfl, rfl⟩, .inr ⟨_, rfl⟩, fun _ _ _ => rfl,
          fun _ h => .inl h, fun _ h => .inl h, fun _ _ h => .inl h⟩

theorem mach_second {t : Target} {k0 k : Kernel} {n len addr port : Nat} (fine : MachFine t k0 k)
    (hl : 2 * (n * k0.page) < t.lim) (ok : MachOk t k n (.second len addr port))
    (held : Held k0 k ((MachJob.second len addr port).room k0.page (n * k0.page))) :
    ∃ k' j', (MachJob.second len addr port).step t k = .ok (k', j') ∧
      MachOwn t k0 k n (.second len addr port) k' j' := by
  have hu := fine.wf.page_pos
  obtain ⟨hlen, place, hn, o, half, hport⟩ := ok
  subst hlen
  have hmul : mulU t 2 (n * k.page) = .ok (2 * (n * k.page)) := Posix.mulU_ok (by rw [fine.page]; exact hl)
  have hr : ∀ a, (a / k0.page, 2 * (n * k0.page) / k0.page) = (a / k.page, 2 * n) := by
    intro a; rw [← fine.page, room_eq hu]
  have hfit := place.fits
  have haddr : addr = addr / k.page * k.page := place.aligned
  have hhalf : (addr / k.page + n) * k.page < t.lim :=
    Nat.lt_of_le_of_lt (Nat.mul_le_mul_right _ (by omega)) hfit
  have hsum : addr + n * k.page = (addr / k.page + n) * k.page := by rw [Nat.add_mul, ← haddr]
  have hadd : addU t addr (n * k.page) = .ok ((addr / k.page + n) * k.page) := by
    simp only [addU, addL]
    rw [if_pos (by rw [hsum]; exact hhalf), hsum]
  have hroom : (MachJob.second (n * k.page) addr port).room k0.page (n * k0.page) = (addr / k.page, 2 * n) := by
    rw [MachJob.room, hr]
  rcases Darwin.vmMap_cases t k (p := addr / k.page + n) (n := n) hu hport with ⟨e, e1⟩ | e1
  · refine ⟨?_, .undo addr (2 * (n * k.page)) (Error.kernel .ringSecondary e), ?_, ?_⟩
    · exact Darwin.idle k ⟨.vmMap ((addr / k.page + n) * k.page) (n * k.page) port, .error e⟩
    · simp only [MachJob.step, hadd, e1, hmul, bind, Except.bind]
      rfl
    · have he : e ≠ 0 := by
        have : (k.vmMap t ((addr / k.page + n) * k.page) (n * k.page) port).2 = .error e := by rw [e1]
        simp only [vmMap, record, vmMapCore] at this
        split at this
        · split at this
          · cases this
          · injection this with this
            omega
        · injection this with this
          omega
      exact machOwn fine held (Darwin.idle_same fine.wf _).2 ⟨rfl, place, e, he, .inr (.inr (.inr rfl))⟩
        (acts_idle _ _ _) (held_mapped held rfl) (.inl (by simp [MachJob.rank]))
  · have hroom' : (MachJob.done (.ok addr)).room k0.page (n * k0.page) = (addr / k.page, 2 * n) := by
      rw [MachJob.room, hr]
    have held' := held
    rw [hroom] at held'
    generalize hp : addr / k.page = p at *
    have pt' : ∀ q, ({ k.mapRange (p + n) n (o, 0).1 (o, 0).2 Unix.protRW true true with
            tick := k.tick + 1
            log := ⟨.vmMap ((p + n) * k.page) (n * k.page) port, .ok 0⟩ :: k.log } : Kernel).pt q =
        if p + n ≤ q ∧ q < p + n + n then some ⟨o, 0 + (q - (p + n)), Unix.protRW, true, true, none, false⟩
        else k.pt q := fun q => rfl
    obtain ⟨h0, h0s, h0d⟩ := half p (Nat.le_refl _) (by omega)
    have inroom : ∀ q, p + n ≤ q ∧ q < p + n + n → InRoom (p, 2 * n) q := by
      intro q hq
      exact ⟨by show p ≤ q; omega, by show q < p + 2 * n; omega⟩
    refine ⟨?_, .done (.ok addr), ?_, ?_⟩
    · exact { k.mapRange (p + n) n (o, 0).1 (o, 0).2 Unix.protRW true true with
            tick := k.tick + 1
            log := ⟨.vmMap ((p + n) * k.page) (n * k.page) port, .ok 0⟩ :: k.log }
    · simp only [MachJob.step, hadd, e1, bind, Except.bind]
      rfl
    · refine machOwn fine held ?_ ⟨place, hn, o, ?_⟩ ?_ ?_ (.inl (by simp [MachJob.rank]))
      · refine fine.wf.mapped (p := p + n) (n := n) (o := o) (idx := 0) (prot := Unix.protRW)
          (sh := true) (mw := true) rfl rfl rfl rfl (Nat.le_refl _) rfl (fine.wf.objs _ _ h0).1 ?_ (by have := place.zero; rw [hp] at this; omega) ?_
        · intro q x c hq hc hoc
          subst hoc
          obtain ⟨e2, g1, g2, -, g4⟩ := held' p ⟨Nat.le_refl _, by show p < p + 2 * n; omega⟩
          rw [h0] at g1
          cases g1
          have hin := g4.pages q x hq (.inr hc)
          obtain ⟨e3, f1, f2, -⟩ := held' q hin
          rw [hq] at f1
          cases f1
          rw [hc] at f2
          cases f2
        · rw [show p + n + n = p + 2 * n by omega]
          exact hfit
      · intro q h1 h2
        have h1 : p ≤ q := by
          have : addr / k.page ≤ q := h1
          rwa [hp] at this
        have h2 : q < p + 2 * n := by
          have : q < addr / k.page + 2 * n := h2
          rwa [hp] at this
        refine ⟨?_, h0s, h0d⟩
        rw [pt']
        show _ = some (⟨o, (q - addr / k.page) % n, Unix.protRW, true, true, none, false⟩ : Pte)
        rw [hp]
        by_cases hq : p + n ≤ q ∧ q < p + n + n
        · rw [if_pos hq]
          have : (q - p) % n = 0 + (q - (p + n)) := by
            rw [show q - p = (q - (p + n)) + n by omega, Nat.add_mod_right, Nat.mod_eq_of_lt (by omega)]
            omega
          rw [this]
        · rw [if_neg hq, (half q h1 (by omega)).1, Nat.mod_eq_of_lt (by omega)]
      · rw [hroom, hroom']
        refine ⟨rfl, Nat.le_refl _, rfl, rfl, rfl, fun _ _ => ⟨rfl, rfl⟩, .inl rfl, ?_, fun q h => .inl h, fun q h => .inl h, ?_⟩
        · intro q hq _
          rw [pt', if_neg (fun h => hq (inroom q h))]
        · intro q e he
          rw [pt'] at he
          split at he
          · rename_i hq
            cases he
            exact .inr ⟨inroom q hq, rfl, .inr ⟨p, _, ⟨Nat.le_refl _, by show p < p + 2 * n; omega⟩, h0, rfl⟩⟩
          · exact .inl he
      · rw [hroom']
        intro q hq
        rw [pt']
        by_cases hin : p + n ≤ q ∧ q < p + n + n
        · rw [if_pos hin]; exact ⟨_, rfl, rfl⟩
        · rw [if_neg hin]
          obtain ⟨e, g1, g2, -⟩ := held' q hq
          exact ⟨e, g1, g2⟩

theorem mach_undo {t : Target} {k0 k : Kernel} {n addr full : Nat} {err : Error} (fine : MachFine t k0 k)
    (ok : MachOk t k n (.undo addr full err))
    (held : Held k0 k ((MachJob.undo addr full err).room k0.page (n * k0.page))) :
    ∃ k' j', (MachJob.undo addr full err).step t k = .ok (k', j') ∧
      MachOwn t k0 k n (.undo addr full err) k' j' := by
  have hu := fine.wf.page_pos
  obtain ⟨hfull, place, herr⟩ := ok
  subst hfull
  have hfit := place.fits
  have haddr : addr = addr / k.page * k.page := place.aligned
  have hroom : (MachJob.undo addr (2 * (n * k.page)) err).room k0.page (n * k0.page) = (addr / k.page, 2 * n) := by
    rw [MachJob.room, ← fine.page, room_eq hu]
  have hn : k.tock.pages (2 * (n * k.page)) = 2 * n := by
    rw [← Nat.mul_assoc]
    exact pages_of (k := k.tock) hu (2 * n)
  have hl : addr + 2 * (n * k.page) < t.lim := by
    rw [← Nat.mul_assoc]
    rw [Nat.add_mul, ← haddr] at hfit
    exact hfit
  have he : (k.vmDeallocate t addr (2 * (n * k.page))).1 =
      { k.tock.clearRange (addr / k.page) (2 * n) with
          log := ⟨.vmDeallocate addr (2 * (n * k.page)), .ok 0⟩ :: k.log } := by
    simp only [vmDeallocate, record, vmDeallocateCore, if_pos hl, hn]
    rfl
  refine ⟨_, _, rfl, ?_⟩
  have pt' : ∀ q, (k.vmDeallocate t addr (2 * (n * k.page))).1.pt q =
      if addr / k.page ≤ q ∧ q < addr / k.page + 2 * n then none else k.pt q := by
    intro q; rw [he]; rfl
  refine machOwn fine held ?_ herr ?_ (fun q h => (InRoom.empty h).elim) (.inl (by simp [MachJob.rank]))
  · rw [he]
    refine fine.wf.sub rfl ?_ (fun _ _ h => h) (fun _ _ h => h) (Nat.le_refl _) (Nat.le_refl _)
    intro q e hq
    have hq : (if addr / k.page ≤ q ∧ q < addr / k.page + 2 * n then none else k.pt q) = some e := hq
    split at hq
    · cases hq
    · exact hq
  · rw [hroom]
    refine ⟨by rw [he]; rfl, by rw [he]; exact Nat.le_refl _, by rw [he]; rfl, by rw [he]; rfl, by rw [he]; rfl,
      fun _ _ => by rw [he]; exact ⟨rfl, rfl⟩, .inl (by rw [he]; rfl), fun q hq _ => (pt' q).trans (if_neg hq),
      fun q hq => (InRoom.empty hq).elim, fun q hq => .inr ((pt' q).trans (if_pos hq)), ?_⟩
    intro q e h
    rw [pt'] at h
    split at h
    · cases h
    · exact .inl h

/-- Every call of a creation. -/
theorem mach_step {t : Target} {k0 k : Kernel} {n : Nat} {j : MachJob} (fine : MachFine t k0 k)
    (hl : 2 * (n * k0.page) < t.lim) (ok : MachOk t k n j) (held : Held k0 k (j.room k0.page (n * k0.page))) :
    ∃ k' j', j.step t k = .ok (k', j') ∧ MachOwn t k0 k n j k' j' := by
  cases j with
  | allocate len => exact mach_allocate fine hl ok
  | overwrite len addr => exact mach_overwrite fine hl ok held
  | entry len addr => exact mach_entry fine hl ok held
  | second len addr port => exact mach_second fine hl ok held
  | undo addr full err => exact mach_undo fine ok held
  | done r =>
    refine ⟨k, .done r, rfl, fine, held, ok, ?_, .inr ⟨r, rfl⟩⟩
    exact ⟨rfl, Nat.le_refl _, rfl, rfl, rfl, fun _ _ => ⟨rfl, rfl⟩, .inl rfl, fun _ _ _ => rfl, fun _ h => .inl h,
      fun _ h => .inl h, fun _ _ h => .inl h⟩

/-- Somebody else's turn. -/
theorem machOk_around {t : Target} {k0 k k' : Kernel} {n : Nat} {j : MachJob} (fine : MachFine t k0 k)
    (ok : MachOk t k n j) (a : MachAround t (j.room k0.page (n * k0.page)) k k') : MachOk t k' n j := by
  have hu := fine.wf.page_pos
  have hpg := a.page
  have hr : ∀ x, (x / k0.page, 2 * (n * k0.page) / k0.page) = (x / k.page, 2 * n) := by
    intro x; rw [← fine.page, room_eq hu]
  have key : ∀ {p o q i}, (∀ x, InRoom (p, 2 * n) x → k'.pt x = k.pt x) →
      (∀ q e, InRoom (p, 2 * n) q → k.pt q = some e → k'.data e.obj = k.data e.obj ∧ k'.size e.obj = k.size e.obj) →
      p ≤ q → q < p + 2 * n →
      (k.pt q = some (⟨o, i, Unix.protRW, true, true, none, false⟩ : Pte) ∧ k.size o = n * k.page ∧ ∀ x, k.data o x = 0) →
      k'.pt q = some (⟨o, i, Unix.protRW, true, true, none, false⟩ : Pte) ∧ k'.size o = n * k'.page ∧ ∀ x, k'.data o x = 0 := by
    intro p o q i h1 h2 h3 h4 ⟨g1, g2, g3⟩
    obtain ⟨d1, d2⟩ := h2 q _ ⟨h3, h4⟩ g1
    exact ⟨(h1 q ⟨h3, h4⟩).trans g1, by rw [hpg]; exact d2.trans g2, fun x => by
      have := congrFun d1 x
      exact this.trans (g3 x)⟩
  cases j with
  | allocate len => show _ = _; rw [hpg]; exact ok
  | overwrite len addr => show _ ∧ MachPlace _ k'.page _ _; rw [hpg]; exact ok
  | entry len addr =>
    obtain ⟨h1, h2, o, h3⟩ := ok
    rw [MachJob.room, hr] at a
    refine ⟨by rw [hpg]; exact h1, by rw [hpg]; exact h2, o, ?_⟩
    rw [hpg]
    intro q q1 q2
    exact key a.pages (fun q e x y => ⟨(a.memory q e x y).1, (a.memory q e x y).2.1⟩) q1 (by omega) (h3 q q1 q2)
  | second len addr port =>
    obtain ⟨h1, h2, h3, o, h4, h5⟩ := ok
    rw [MachJob.room, hr] at a
    refine ⟨by rw [hpg]; exact h1, by rw [hpg]; exact h2, h3, o, ?_, ?_⟩
    · rw [hpg]
      intro q q1 q2
      exact key a.pages (fun q e x y => ⟨(a.memory q e x y).1, (a.memory q e x y).2.1⟩) q1 (by omega) (h4 q q1 q2)
    · obtain ⟨l, hl⟩ := a.ports
      rw [← hl, List.getElem?_append_left]
      · exact h5
      · exact (List.getElem?_eq_some_iff.mp h5).1
  | undo addr full err => show _ ∧ MachPlace _ k'.page _ _ ∧ _; rw [hpg]; exact ok
  | done r =>
    cases r with
    | error e => exact ok
    | ok addr =>
      obtain ⟨h1, h2, o, h3⟩ := ok
      rw [MachJob.room, hr] at a
      refine ⟨by rw [hpg]; exact h1, h2, o, ?_⟩
      rw [hpg]
      intro q q1 q2
      have := key a.pages (fun q e x y => ⟨(a.memory q e x y).1, (a.memory q e x y).2.1⟩) q1 q2 (h3 q q1 q2)
      rwa [hpg] at this

/-- Where a creation has got to. -/
structure MachNow (t : Target) (k0 k : Kernel) (n c : Nat) (j : MachJob) : Prop where
  fine : MachFine t k0 k
  ok : MachOk t k n j
  held : Held k0 k (j.room k0.page (n * k0.page))
  rank : j.rank ≤ 5 - c

theorem machRun_now {t : Target} {k0 k : Kernel} (wf : Wf t k0) {n c : Nat} {j : MachJob}
    (hl : 2 * (n * k0.page) < t.lim) (run : MachRun t (n * k0.page) k0 c k j) : MachNow t k0 k n c j := by
  induction run with
  | start => exact ⟨⟨wf, rfl, Nat.le_refl _⟩, rfl, held_empty _ _, Nat.le_refl _⟩
  | @own c k j k' j' _ st ih =>
    obtain ⟨k1, j1, h, own⟩ := mach_step ih.fine hl ih.ok ih.held
    rw [st] at h
    cases h
    refine ⟨own.fine, own.ok, own.held, ?_⟩
    have := ih.rank
    rcases own.rank with h | ⟨r, rfl⟩
    · omega
    · have : j' = .done r := by cases st; rfl
      subst this
      exact Nat.zero_le _
  | @other c k j k' _ what ih =>
    exact ⟨⟨what.wf, what.page.trans ih.fine.page, Nat.le_trans ih.fine.fresh what.fresh⟩,
      machOk_around ih.fine ih.ok what, held_around ih.held what, ih.rank⟩

end Vmap
