import Verif.Proofs.Ledger
import Verif.Props.Settings
/-
Property theorems C119: which files a program has open, and which files have names.
-/
namespace Vmap
open Kernel Spec

section
variable {tab : SysTable} {t : Target} {k0 : Kernel} {w w' : World}

/-- C119: at every point of every program, the open descriptors are exactly those of the `File`s the
program has: the ones it began with and the ones `open_if` returned, less the ones it dropped. -/
theorem C119_descriptors (wf : Wf t k0) {F : Nat → Option Fd} (led : Ledger tab t k0 w F) :
    w.k.fds = F :=
  (led.inv wf).2

/-- C119: every program has such an account. -/
theorem C119_accounted (wf : Wf t k0) (reach : Reach tab t k0 w) : ∃ F, Ledger tab t k0 w F := by
  induction reach with
  | start => exact ⟨_, .start⟩
  | @step w1 w2 op before sane st ih =>
    obtain ⟨F, led⟩ := ih
    by_cases ho : ∃ o path, op = .openIf o path
    · obtain ⟨o, path, rfl⟩ := ho
      cases hc : o.openIf tab t w1.k path with
      | error e => simp only [World.step, hc, bind, Except.bind] at st; cases st
      | ok x =>
        obtain ⟨k1, r⟩ := x
        obtain ⟨-, -, -, h4⟩ := openIf_files (before.inv wf) sane hc
        cases r with
        | error err => exact ⟨_, .failed led sane hc st⟩
        | ok y =>
          obtain ⟨-, f, g1, g2, g3, -⟩ := h4 _ _ rfl
          exact ⟨_, .opened led sane hc st g1 g2 g3⟩
    · by_cases hd : ∃ fd, op = .close fd
      · obtain ⟨fd, rfl⟩ := hd
        exact ⟨_, .closed led st⟩
      · exact ⟨_, .other led sane st (fun o p h => ho ⟨o, p, h⟩) (fun fd h => hd ⟨fd, h⟩)⟩

/-- C119: the descriptor `open_if` returns was not in use; it is the file of that name, open for reading,
and for writing iff asked for; no other descriptor changes.  A failing `open_if` changes none. -/
theorem C119_open (wf : Wf t k0) (reach : Reach tab t k0 w) {o : Options} (fits : Fits t o)
    {path : String} {k1 : Kernel} {r : Result (Option MapMut × Nat)}
    (call : o.openIf tab t w.k path = .ok (k1, r)) :
    (∀ err, r = .error err → k1.fds = w.k.fds) ∧
    (∀ x fd, r = .ok (x, fd) → w.k.fds fd = none ∧ ∃ f : Fd, k1.names path = some f.obj ∧
      f.canRead = true ∧ f.canWrite = o.openOptions.write ∧
      k1.fds = fun d => if d = fd then some f else w.k.fds d) :=
  (openIf_files (reach.inv wf) fits call).2.2

/-- C119: the only call that changes a name is `open_if`, of that name, when no file has it and the
options ask for creation and for write access. -/
theorem C119_names (wf : Wf t k0) (reach : Reach tab t k0 w) {op : Op} (sane : op.Sane t w)
    (st : w.step tab t op = .ok w') {n : String} (change : w'.k.names n ≠ w.k.names n) :
    ∃ o, op = .openIf o n ∧ w.k.names n = none ∧ o.openOptions.write = true ∧
      (o.openOptions.create = true ∨ o.openOptions.createNew = true) := by
  have v := reach.inv wf
  by_cases ho : ∃ o path, op = .openIf o path
  · obtain ⟨o, path, rfl⟩ := ho
    cases hc : o.openIf tab t w.k path with
    | error e => simp only [World.step, hc, bind, Except.bind] at st; cases st
    | ok x =>
      obtain ⟨k1, r⟩ := x
      obtain ⟨h1, h2, -⟩ := openIf_files v sane hc
      rw [h1 _ st] at change
      rcases h2 with h2 | ⟨h2, h3, h4, x, -, h5⟩
      · rw [h2] at change; exact absurd rfl change
      · rw [h5] at change
        by_cases hn : n = path
        · subst hn; exact ⟨o, rfl, h2, h4, h3⟩
        · exact absurd (if_neg hn) change
  · by_cases hd : ∃ fd, op = .close fd
    · obtain ⟨fd, rfl⟩ := hd
      injection st with st; subst st; exact absurd rfl change
    · rw [(step_files v sane st (fun o p h => ho ⟨o, p, h⟩) (fun fd h => hd ⟨fd, h⟩)).2] at change
      exact absurd rfl change

/-- C119: a name keeps its file, whatever the program does. -/
theorem C119_name_stays (wf : Wf t k0) (reach : Reach tab t k0 w) {P : Kernel → Prop}
    (later : Later tab t P w w') {n : String} {x : Obj} (h : w.k.names n = some x) : w'.k.names n = some x := by
  suffices h2 : Reach tab t k0 w' ∧ w'.k.names n = some x from h2.2
  induction later with
  | refl => exact ⟨reach, h⟩
  | @step w1 w2 op before sane st _ ih =>
    obtain ⟨r1, h1⟩ := ih
    refine ⟨.step r1 sane st, ?_⟩
    apply Decidable.byContradiction
    intro hn
    obtain ⟨o, -, h2, -⟩ := C119_names wf r1 sane st (n := n) (by rw [h1]; exact hn)
    rw [h1] at h2
    cases h2
end

/-- Non-vacuity of C119: the demo program opens a new file (which it need not map, being too short for
the length asked for), maps another, and closes the new file: its descriptors are those it began with,
and the new file has a name. -/
def ledger0 : World := (World.start (demo 0)).next! (.openIf ((Options.newMut.create true).setLen (.exact 100)) "other")
def ledger1 : World := ledger0.next! (.mapIf Options.new.write 3)
def ledger2 : World := ledger1.next! (.close 5)

theorem ledger2_led : ∃ F, Ledger demoTab ⟨.w64, true⟩ (demo 0) ledger2 F ∧ F = (demo 0).fds := by
  have f1 : Fits ⟨.w64, true⟩ ((Options.newMut.create true).setLen (.exact 100)) :=
    ⟨trivial, by show 100 < 2 ^ 64; decide, by decide⟩
  have f2 : Fits ⟨.w64, true⟩ Options.new.write := ⟨trivial, trivial, by decide⟩
  have st := World.next!_eq (w := World.start (demo 0))
    (op := .openIf ((Options.newMut.create true).setLen (.exact 100)) "other") (by decide +kernel)
  have hc : (match ((Options.newMut.create true).setLen (.exact 100)).openIf demoTab ⟨.w64, true⟩ (demo 0) "other" with
    | .ok (k1, .ok (none, fd)) => decide (fd = 5 ∧ k1.names "other" = some (demo 0).fresh)
    | _ => false) = true := by decide +kernel
  split at hc
  · rename_i k1 fd call
    obtain ⟨rfl, h2⟩ := of_decide_eq_true hc
    refine ⟨_, .closed (.other (op := .mapIf Options.new.write 3)
      (.opened (f := ⟨(demo 0).fresh, true, true⟩) .start f1 call st h2 rfl rfl) f2
      (World.next!_eq (by decide +kernel)) (fun _ _ h => by cases h) (fun _ h => by cases h))
      (World.next!_eq (by decide +kernel)), ?_⟩
    funext d
    by_cases hd : d = 5
    · subst hd; rfl
    · simp only [if_neg hd]
  · cases hc

example : ledger2.k.fds = (demo 0).fds ∧ (∃ x, ledger2.k.names "other" = some x) ∧
    (demo 0).names "other" = none ∧ (ledger1.k.fds 5).isSome = true := by
  obtain ⟨F, led, e⟩ := ledger2_led
  refine ⟨by rw [C119_descriptors (demo_wf 0) led, e], Option.isSome_iff_exists.mp (by decide +kernel), rfl,
    by decide +kernel⟩

end Vmap
