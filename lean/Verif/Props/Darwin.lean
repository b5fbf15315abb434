import Verif.Proofs.Ports
import Verif.Props.Calls
/-
Property theorems C141 (rings on macOS beside maps, in whole programs) and C142 (port rights).
-/
namespace Vmap
open Kernel Spec

section
variable {t : Target} {k : Kernel}

/-- What a ring creation on macOS does: either it fails with the error of the call that failed, having
given back what it had reserved, and pages, files and descriptors are as before; or `Made` (C15,
C25) holds with the four calls of `DarwinRingCalls`, and there is one port right more. -/
def DarwinOutcome (t : Target) (k k' : Kernel) (hint : Nat) (res : Result (Nat × Nat)) : Prop :=
  match res with
  | .error err => SameWorld k k' ∧ Wf t k' ∧ ∃ len l, k'.log = l ++ k.log ∧ DarwinTrace len l err ∧
      (len = 0 ∨ IsRoundUp k.page hint len)
  | .ok (ptr, len) => Made t k k' hint ptr len ∧ k'.ports.length = k.ports.length + 1 ∧
      ∃ port, k'.log = [⟨.vmMap (ptr + len) len port, .ok 0⟩, ⟨.memoryEntry ptr len, .ok port⟩,
        ⟨.vmAllocateAt ptr len, .ok 0⟩, ⟨.vmAllocate (2 * len), .ok ptr⟩] ++ k.log

theorem darwin_outcome (wf : Wf t k) (mac : k.mach = true) {hint : Nat} (fits : RingFits t k hint) :
    ∃ len k' res, (Size.withSize k.page).round t hint = .ok len ∧ Os.mapRing t k len = .ok (k', res) ∧
      DarwinOutcome t k k' hint (res.map fun p => (p, len)) := by
  obtain ⟨s, hs, hs2⟩ := wf.page
  have hu := Nat.two_pow_pos s
  have hr : (Size.withSize k.page).round t hint = .ok ((hint + k.page - 1) / k.page * k.page) := by
    have := fits.1
    rw [hs] at this ⊢
    exact round_eq (by omega) this
  have hh : hint < t.lim := Nat.lt_of_le_of_lt (Nat.le_add_right _ _) fits.1
  have hl : 2 * ((hint + k.page - 1) / k.page * k.page) < t.lim := by
    have := fits.2 mac
    have := Nat.div_mul_le_self (hint + k.page - 1) k.page
    have := wf.page_pos
    omega
  obtain ⟨len, k', res, h1, h2, h3, h4⟩ := Os.mapRing_good wf fits
  have hlen : len = (hint + k.page - 1) / k.page * k.page := by
    have := h1.symm.trans hr
    injection this
  subst hlen
  obtain ⟨hcap, -⟩ := newRing_cases wf hh hr
  refine ⟨_, k', res, h1, h2, ?_⟩
  have h5 := h2
  simp only [Os.mapRing, if_pos mac] at h5
  rcases Darwin.mapRing_cases wf hl with ⟨k1, err, l, he, -, -, hlog, tr, -⟩ |
    ⟨k1, p, o, he, -, -, -, -, -, -, -, -, -, -, -, -, hp, hlog⟩
  · rw [h5] at he
    injection he with he
    injection he with he1 he2
    subst he1 he2
    obtain ⟨a, b⟩ := h3 err rfl
    exact ⟨a, b, _, l, hlog, tr, hcap⟩
  · rw [h5] at he
    injection he with he
    injection he with he1 he2
    subst he1 he2
    exact ⟨h4 _ rfl, by rw [hp]; simp, _, hlog⟩

/-- C141 for `Ring::new` on macOS: it does not panic; it fails without trace (but for a port right, C142)
or yields a ring as elsewhere. -/
theorem C141_ring (wf : Wf t k) (mac : k.mach = true) {hint : Nat} (fits : RingFits t k hint) :
    ∃ k' res, Ring.make t k hint = .ok (k', res) ∧
      DarwinOutcome t k k' hint (res.map fun r => (r.ptr, SeqWrite.writeCapacity r)) ∧
      ∀ r, res = .ok r → RingAt t k' r 0 := by
  obtain ⟨len, k', res, h1, h2, h3⟩ := darwin_outcome wf mac fits
  cases res with
  | error e =>
    refine ⟨k', .error e, ?_, h3, fun _ h => by cases h⟩
    simp only [Ring.make, Unix.systemInfo, h1, h2, bind, Except.bind, pure, Except.pure]
  | ok p =>
    have e : Ring.make t k hint = .ok (k', .ok ⟨p, len, 0, 0⟩) := by
      simp only [Ring.make, Unix.systemInfo, h1, h2, bind, Except.bind, pure, Except.pure]
    refine ⟨k', .ok ⟨p, len, 0, 0⟩, e, h3, ?_⟩
    intro r hr
    injection hr with hr
    subst hr
    exact (ringRep_make wf ⟨Nat.lt_of_le_of_lt (Nat.le_add_right _ _) fits.1, fun _ => fits⟩ e).1

/-- C141 for `InfiniteRing::new`. -/
theorem C141_infinite (wf : Wf t k) (mac : k.mach = true) {hint : Nat} (fits : RingFits t k hint) :
    ∃ k' res, InfiniteRing.make t k hint = .ok (k', res) ∧
      DarwinOutcome t k k' hint (res.map fun r => (r.ptr, SeqWrite.writeCapacity r)) ∧
      ∀ r, res = .ok r → InfAt t k' r 0 := by
  obtain ⟨len, k', res, h1, h2, h3⟩ := darwin_outcome wf mac fits
  cases res with
  | error e =>
    refine ⟨k', .error e, ?_, h3, fun _ h => by cases h⟩
    simp only [InfiniteRing.make, Unix.systemInfo, h1, h2, bind, Except.bind, pure, Except.pure]
  | ok p =>
    refine ⟨k', .ok ⟨p, len, 0, 0⟩, ?_, h3, ?_⟩
    · simp only [InfiniteRing.make, Unix.systemInfo, h1, h2, bind, Except.bind, pure, Except.pure]
    · intro r hr
      injection hr with hr
      subst hr
      exact .placed h3.1.wf (h3.1.circular wf) rfl rfl

end

section
variable {tab : SysTable} {t : Target} {k0 : Kernel} {w w' : World}

/-- C142 in full: a program on macOS that has dropped all its rings holds no more port rights than at
its start. -/
def C142_full : Prop :=
  ∀ (tab : SysTable) (t : Target) (k0 : Kernel), Wf t k0 → k0.mach = true →
    ∀ w : World, Reach tab t k0 w → (∀ i, w.held i = none) → w.k.ports.length = k0.ports.length

/-- C142, what holds: no step ever gives a right back, only asking for a ring obtains one, and every
ring obtained costs exactly one: after asking `a` times and obtaining `c` rings, on macOS, there are
at least `c` and at most `a` rights more than before, whatever has been dropped in between.
(Missing: that the rights are given back, which is false: `C142_false`.) -/
theorem C142_rights_partial {c a : Nat} (run : RingRun tab t w c a w') (mac : w.k.mach = true) :
    w.k.ports.length + c ≤ w'.k.ports.length ∧ w'.k.ports.length ≤ w.k.ports.length + a := by
  have key : w'.k.mach = true ∧ w.k.ports.length + c ≤ w'.k.ports.length ∧
      w'.k.ports.length ≤ w.k.ports.length + a := by
    induction run with
    | refl => exact ⟨mac, by omega, by omega⟩
    | @step w1 w2 c a op _ _ st ih =>
      obtain ⟨m, h1, h2⟩ := ih
      obtain ⟨g1, g2, g3⟩ := step_ports st
      refine ⟨g1.trans m, ?_⟩
      cases ho : op.asksRing with
      | false =>
        rw [g2 (.inl ho)]
        simp only [Bool.false_eq_true, false_and, if_false]
        exact ⟨h1, h2⟩
      | true =>
        obtain ⟨a1, a2, a3⟩ := g3 ho m
        by_cases hn : w2.next ≠ w1.next
        · have := a1 hn
          rw [if_pos ⟨rfl, hn⟩, if_pos rfl]
          omega
        · rw [if_neg (fun h => hn h.2), if_pos rfl]
          omega
  exact key.2

/-- C142: on other systems there are no port rights, and a program stays on its system. -/
theorem C142_elsewhere (reach : Reach tab t k0 w) (other : k0.mach = false) :
    w.k.mach = false ∧ w.k.ports = k0.ports := by
  induction reach with
  | start => exact ⟨other, rfl⟩
  | step _ _ st ih =>
    obtain ⟨g1, g2, -⟩ := step_ports st
    exact ⟨g1.trans ih.1, (g2 (.inr ih.1)).trans ih.2⟩

end

/-! ### Non-vacuity, and the negation -/

/-- The demo machine, on macOS. -/
def demoMac : Kernel := { demo 0 with mach := true }

theorem demoMac_wf : Wf ⟨.w64, true⟩ demoMac := by
  have h := demo_wf (t := ⟨.w64, true⟩) 0
  exact ⟨h.1, h.2, h.3, h.4, h.5, h.6, h.7⟩

-- a program on macOS with a file map, a ring and an infinite ring, to which C75, C77, C95–C99 etc. apply
theorem demoMac_world (tab : SysTable) : ∃ (w : World) (m : MapMut) (r : Ring) (s : InfiniteRing),
    Reach tab ⟨.w64, true⟩ demoMac w ∧ w.k.mach = true ∧ w.held 0 = some (.map m) ∧ m.len = 3000 ∧
    w.held 1 = some (.ring r 0) ∧ SeqWrite.writeCapacity r = 8192 ∧
    w.held 2 = some (.inf s 0) ∧ SeqWrite.writeCapacity s = 4096 ∧ w.k.ports.length = 2 := by
  have step : ∀ {w w' : World} {op : Op}, Reach tab ⟨.w64, true⟩ demoMac w →
      op.Sane ⟨.w64, true⟩ w → w.step tab ⟨.w64, true⟩ op = .ok w' →
      Reach tab ⟨.w64, true⟩ demoMac w' := fun a b c => .step a b c
  refine ⟨_, _, _, _, step (op := .newInf 1) (step (op := .newRing 5000) (step
    (op := .mapIf ((Options.new.setOffset 5000).setLen (.exact 3000)) 3) .start ?_ rfl) ?_ rfl) ?_ rfl,
    rfl, rfl, rfl, rfl, rfl, rfl, rfl, rfl⟩
  · exact ⟨trivial, show (3000 : Nat) < _ by decide, show (5000 : Nat) < _ by decide⟩
  · exact ⟨by show (5000 + 4096 : Nat) < _; decide, fun _ => by show (2 * (5000 + 4096) : Nat) ≤ _; decide⟩
  · exact ⟨by show (1 + 4096 : Nat) < _; decide, fun _ => by show (2 * (1 + 4096) : Nat) ≤ _; decide⟩

example : Wf ⟨.w64, true⟩ demoMac ∧ demoMac.mach = true ∧ RingFits ⟨.w64, true⟩ demoMac 5000 :=
  ⟨demoMac_wf, rfl, by show (5000 + 4096 : Nat) < _; decide,
    fun _ => by show (2 * (5000 + 4096) : Nat) ≤ _; decide⟩

/-- A ring is made and dropped. -/
theorem demoMac_dropped (tab : SysTable) : ∃ w : World, Reach tab ⟨.w64, true⟩ demoMac w ∧
    RingRun tab ⟨.w64, true⟩ (World.start demoMac) 1 1 w ∧
    (∀ i, w.held i = none) ∧ w.k.ports.length = 1 := by
  have step : ∀ {w w' : World} {op : Op}, Reach tab ⟨.w64, true⟩ demoMac w →
      op.Sane ⟨.w64, true⟩ w → w.step tab ⟨.w64, true⟩ op = .ok w' →
      Reach tab ⟨.w64, true⟩ demoMac w' := fun a b c => .step a b c
  have fits : Op.Sane ⟨.w64, true⟩ (World.start demoMac) (.newRing 5000) :=
    ⟨by show (5000 + 4096 : Nat) < _; decide, fun _ => by show (2 * (5000 + 4096) : Nat) ≤ _; decide⟩
  refine ⟨_, step (op := .drop 0) (step (op := .newRing 5000) .start fits rfl) trivial rfl,
    RingRun.step (op := .drop 0) (RingRun.step (op := .newRing 5000) .refl fits rfl) trivial rfl, ?_, rfl⟩
  intro i
  cases i <;> rfl

/-- C142 is false: a program that has made one ring and dropped it still holds the right. -/
theorem C142_false : ¬ C142_full := by
  intro full
  have tab : SysTable := ⟨fun _ => .interrupted, fun _ => ""⟩
  obtain ⟨w, h1, -, h2, h3⟩ := demoMac_dropped tab
  have := full tab _ _ demoMac_wf rfl w h1 h2
  rw [h3] at this
  exact absurd this (by decide)

end Vmap
