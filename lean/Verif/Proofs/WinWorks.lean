import Verif.Spec.WinWorks
import Verif.Proofs.WorksWin
import Verif.Proofs.WinFile
/- Helper lemmas for C133 on Windows, files by name. -/
namespace Vmap
open Spec Win

/-- A handle that allows what is asked makes no difference. -/
theorem mapIfAs_may (tab : SysTable) (t : Target) (s : Vmap.Win) {o : Options} {w : Bool} (file : Nat)
    (store : o.protect = .readWrite → w = true) (change : o.truncate = true ∨ o.resize ≠ .endOf → w = true) :
    s.mapIfAs tab t w o file = s.mapIf tab t o file := by
  cases w with
  | true =>
    have h1 : ∀ (s : Vmap.Win) f n, s.resizeFileAs tab true f n = s.resizeFile tab f n := fun _ _ _ => rfl
    have h2 : ∀ (s : Vmap.Win) f n, s.truncateStepAs tab true o f n = s.truncateStep tab o f n := by
      intro s f n; simp only [truncateStepAs, truncateStep, h1]
    have h3 : ∀ (s : Vmap.Win) f n, s.resizeStepAs tab true o f n = s.resizeStep tab o f n := by
      intro s f n; simp only [resizeStepAs, resizeStep, h1]; rfl
    have h4 : ∀ (s : Vmap.Win) f n, s.mapStepAs t true o f n = s.mapStep t o f n := fun _ _ _ => rfl
    simp only [mapIfAs, mapIf, h2, h3, h4]; rfl
  | false =>
    have ht : o.truncate = false := by
      cases h : o.truncate with
      | false => rfl
      | true => exact absurd (change (.inl h)) (by decide)
    have hr : o.resize = .endOf := Classical.byContradiction fun h => absurd (change (.inr h)) (by decide)
    have hp : o.protect ≠ .readWrite := fun h => absurd (store h) (by decide)
    simp only [mapIfAs, mapIf, truncateStepAs, truncateStep, resizeStepAs, resizeStep, ht, hr, mapStepAs, hp,
      Bool.false_and, Bool.false_eq_true, if_false, ne_eq, not_false_eq_true, decide_true, Bool.or_true, if_true]
    rfl

/-- Opening a file, if Windows agrees. -/
theorem openFile_win_willing (tab : SysTable) {t : Target} {fs : WinFs} (w : WinFsWf t fs) {o : Options} {path : String}
    {old : Nat} (can : WinOpenable fs o path old) (named : WinNamed fs o path old) :
    ∃ fs' f, fs.openFile tab o.openOptions path = (fs', .ok fs.nextHandle) ∧ WinAsked fs.win fs'.win ∧
      fs'.opened fs.nextHandle = some (f, o.openOptions.write) ∧ fs'.win.files f = some old ∧
      (o.truncate = true ∨ o.openOptions.truncate = true ∨ o.resize ≠ .endOf →
        ∀ v, v ∈ fs.win.views → v.sec.file ≠ some f) ∧ fs'.asks = fs.asks := by
  have hok : fs.choice.ok = true := can.ok _
  have acc := can.access
  have chg := named.change
  have found := can.found
  simp only [WinFs.openFile, OpenOptions.creation]
  generalize o.openOptions = oo at acc chg found ⊢
  obtain ⟨r, wr, tr, cr, cn⟩ := oo
  simp only at acc chg found ⊢
  rw [if_neg (by cases wr <;> cases tr <;> cases cr <;> cases cn <;> simp_all)]
  rcases found with ⟨f, l, n1, n2, n3, n4⟩ | ⟨n1, n2, n3⟩
  · subst n3
    have hv : tr = true → fs.viewed f = false := by
      intro h
      rw [WinFs.viewed, List.any_eq_false]
      intro v hv
      rw [decide_eq_true_eq]
      exact (chg (.inr (.inl h))).2 f n1 v hv
    have un : o.truncate = true ∨ tr = true ∨ o.resize ≠ .endOf → ∀ v, v ∈ fs.win.views → v.sec.file ≠ some f :=
      fun h => (chg h).2 f n1
    cases tr with
    | false =>
      subst n4
      cases cr <;> simp only [WinFs.createFile, hok, if_true, n1, WinFs.addHandle, WinFs.ioErr] <;>
        exact ⟨_, f, rfl, ⟨rfl, rfl, rfl, rfl, rfl⟩, if_pos rfl, n2, un, rfl⟩
    | true =>
      subst n4
      have hv := hv rfl
      have hv' : ∀ a, WinFs.viewed { fs with asked := a } f = false := fun _ => hv
      cases cr <;> simp only [WinFs.createFile, hok, if_true, n1, hv', Bool.false_eq_true, if_false, WinFs.addHandle,
          WinFs.empty, WinFs.ioErr] <;>
        exact ⟨_, f, rfl, ⟨rfl, rfl, rfl, rfl, rfl⟩, if_pos rfl, if_pos rfl, fun _ => un (.inr (.inl rfl)), rfl⟩
  · subst n3
    have un : ∀ v, v ∈ fs.win.views → v.sec.file ≠ some fs.nextFile :=
      fun v hv h => Nat.lt_irrefl _ (w.views v hv _ h)
    cases tr <;> cases cr <;> cases cn <;> first
      | (rcases n2 with h | h <;> exact absurd h (by decide))
      | (simp only [WinFs.createFile, hok, if_true, n1, WinFs.addHandle, WinFs.newEmpty, WinFs.empty, WinFs.ioErr]
         exact ⟨_, fs.nextFile, rfl, ⟨rfl, rfl, rfl, rfl, rfl⟩, if_pos rfl, if_pos rfl, fun _ => un, rfl⟩)

end Vmap
