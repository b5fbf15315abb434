import Verif.Proofs.WinWorks
import Verif.Props.Works
import Verif.Proofs.WinDisk
import Verif.Spec.WinDocMap
/-
C133, continued: `open_if` on Windows.
-/
namespace Vmap
open Spec

/-- C133 on Windows, files by name: `open_if`, of a name that is there (or is created, if the options ask for
that). -/
theorem C133_windows_open_if (tab : SysTable) {t : Target} {fs : WinFs} (w : WinFsWf t fs) {addr n : Nat}
    (sys : WinWilling t fs.win addr n) {o : Options} (fits : Fits t o) {path : String} {old : Nat}
    (there : WinOpenable fs o path old) (small : old < t.lim) (can : WinNamed fs o path old)
    (room : wanted (newLen o.truncate o.resize old) o.offset o.len + o.offset % fs.win.gran ≤ n) :
    (InRange (newLen o.truncate o.resize old) o.offset o.len → ∃ fs',
      fs.openIf tab t o path = .ok (fs', .ok (some ⟨addr + o.offset % fs.win.gran,
        wanted (newLen o.truncate o.resize old) o.offset o.len⟩, fs.nextHandle))) ∧
    (¬ InRange (newLen o.truncate o.resize old) o.offset o.len → ∃ fs',
      fs.openIf tab t o path = .ok (fs', .ok (none, fs.nextHandle))) := by
  obtain ⟨f1, f, e1, kept, hh, hf, un, -⟩ := openFile_win_willing tab w there can
  have wf1 : WinWf t f1.win := by
    rcases openFile_next tab w o.openOptions path with ⟨k', code, h1, -⟩ | ⟨k', g, l, h1, op, -⟩
    · rw [e1] at h1; injection h1 with _ h1; cases h1
    · rw [e1] at h1; injection h1 with h1 _; subst h1; exact op.wf.win
  have as := fun s => mapIfAs_may tab t s (o := o) (w := o.openOptions.write) f can.store
    (fun h => (can.change (h.elim .inl (fun h => .inr (.inr h)))).1)
  have h := C133_windows_map_if tab wf1 (kept.willing sys) fits hf small
    ⟨fun h => by rw [kept.views]; exact un (h.elim .inl (fun h => .inr (.inr h))), can.length,
      by rw [kept.gran]; exact can.some⟩ (by rw [kept.gran]; exact room)
  rw [kept.gran] at h
  constructor
  · intro hr
    obtain ⟨s', e2⟩ := h.1 hr
    refine ⟨{ f1 with win := s' }, ?_⟩
    simp only [WinFs.openIf, e1, WinFs.mapIf, hh, as, e2, bind, Except.bind]
    rfl
  · intro hr
    obtain ⟨s', e2⟩ := h.2 hr
    refine ⟨{ f1 with win := s' }, ?_⟩
    simp only [WinFs.openIf, e1, WinFs.mapIf, hh, as, e2, bind, Except.bind]
    rfl

/-- Non-vacuity: 4 bytes from byte 10 on of the example's file, and a new file of 6000 bytes. -/
example (tab : SysTable) :
    (∃ fs', (winKindDir DocMap.this).openIf tab ⟨.w64, true⟩ ((Options.new.setOffset 10).setLen (.exact 4)) "data" =
      .ok (fs', .ok (some ⟨67108874, 4⟩, 3))) ∧
    (∃ fs', (winKindDir DocMap.this).openIf tab ⟨.w64, true⟩ ((Options.newMut.create true).setResize (.exact 6000)) "new" =
      .ok (fs', .ok (some ⟨67108864, 6000⟩, 3))) :=
  ⟨(C133_windows_open_if tab (winKindDir_good DocMap.this).wf (winKindDir_willing _)
      (o := (Options.new.setOffset 10).setLen (.exact 4)) (old := 14) ⟨trivial, by show 4 < 2 ^ 64; decide, by decide⟩
      ⟨fun _ => rfl, by simp [Options.new, Options.setOffset, Options.setLen],
        .inl ⟨0, 14, rfl, rfl, rfl, rfl⟩⟩ (by decide)
      ⟨fun h => (nomatch h), by simp [Options.new, Options.setOffset, Options.setLen], by decide, fun _ => by decide⟩
      (by decide)).1 (by show 10 + 4 ≤ 14; decide),
    (C133_windows_open_if tab (winKindDir_good DocMap.this).wf (winKindDir_willing _)
      (o := (Options.newMut.create true).setResize (.exact 6000)) (old := 0) ⟨by show 6000 < 2 ^ 64; decide, trivial, by decide⟩
      ⟨fun _ => rfl, fun _ => rfl, .inr ⟨rfl, .inl rfl, rfl⟩⟩ (by decide)
      ⟨fun _ => rfl, fun _ => ⟨rfl, fun _ _ _ h => (nomatch h)⟩, by decide, fun _ => by decide⟩
      (by decide)).1 (by show 0 ≤ 6000; decide)⟩

end Vmap
