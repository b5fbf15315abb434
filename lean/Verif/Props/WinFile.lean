import Verif.Proofs.WinFile
/-
C158: `open` and `open_if` on Windows.
-/
namespace Vmap
open Spec

variable {t : Target}

/-- C158: `open_if` never panics.  If it succeeds it has opened the file with that name — an existing one,
or a new one if asked to create it — for reading, and for writing if asked to; has truncated and
resized it as asked; and has mapped the range, or nothing if it is not inside the file.  If it fails, no
file is left open and nothing mapped.  Files with other names are left alone. -/
theorem C158_open_if (tab : SysTable) {fs : WinFs} (wf : WinFsWf t fs) {o : Options} (fits : Fits t o) (path : String) :
    ∃ fs' r, fs.openIf tab t o path = .ok (fs', r) ∧ WinFsWf t fs' ∧ WinOthers fs fs' path ∧
      fs'.win.handles = fs.win.handles ∧
      (∀ mo h, r = .ok (mo, h) → ∃ f l, WinFound fs o.openOptions path f l ∧ fs'.names path = some f ∧
        fs.opened h = none ∧
        fs'.opened = (fun q => if q = h then some (f, o.openOptions.write) else fs.opened q) ∧
        fs'.win.files f = some (leftLen o.truncate o.resize l (l % t.lim)) ∧
        (∀ i, i < leftLen o.truncate o.resize l (l % t.lim) → fs'.win.bytes.file f i =
          if i < cutLen o.truncate l (l % t.lim) then fs.win.bytes.file f i else 0) ∧
        (mo = none ↔ ¬ InRange (newLen o.truncate o.resize (l % t.lim)) o.offset o.len) ∧
        (mo = none → fs'.win.views = fs.win.views) ∧
        ∀ m, mo = some m → m.len = wanted (newLen o.truncate o.resize (l % t.lim)) o.offset o.len ∧
          ∃ v, WinMap t fs.win fs'.win m (some f) o.offset o.protect v) ∧
      (∀ e, r = .error e → fs'.opened = fs.opened ∧ fs'.win.views = fs.win.views ∧
        ∃ code, e = Error.io .mapFile (SysError.toIo tab (.os code)) ∨
          e = Error.lastOsError .mapFileHandle code ∨ e = Error.lastOsError .mapFileView code) := by
  have hnew : fs.opened fs.nextHandle = none := by
    cases h : fs.opened fs.nextHandle with
    | none => rfl
    | some x => exact absurd (wf.opened _ x.1 x.2 h).2 (Nat.lt_irrefl _)
  rcases openFile_out tab wf o.openOptions path with ⟨fs1, code, h1, same, wf1⟩ | ⟨fs1, f, l, h1, op⟩
  · refine ⟨fs1, .error (Options.mapFileErr (SysError.toIo tab (.os code))), ?_, wf1, ⟨fun p _ => by rw [same.names],
      fun g _ _ => by rw [same.win]; exact ⟨rfl, rfl⟩⟩, by rw [same.win], (fun _ _ h => by cases h), fun e he => ?_⟩
    · simp only [WinFs.openIf, h1]; rfl
    · injection he with he
      exact ⟨same.opened, by rw [same.win], code, .inl he.symm⟩
  have hh : fs1.opened fs.nextHandle = some (f, o.openOptions.write) := by rw [op.opened]; exact if_pos rfl
  obtain ⟨s', r, h2, m, wf2⟩ := mapIf_fs tab op.wf fits hh
  have others : WinOthers fs { fs1 with win := s' } path := by
    refine ⟨op.others.names, fun g hg hne => ?_⟩
    have hgf : g ≠ f := by
      rintro rfl
      cases op.found with
      | there name => exact hne name
      | new => exact absurd hg (Nat.lt_irrefl _)
    obtain ⟨k1, k2⟩ := op.others.files g hg hne
    exact ⟨(m.lens g hgf).trans k1, (m.bytes g hgf).trans k2⟩
  have hhand : s'.handles = fs.win.handles := m.handles.trans op.quiet.keeps.handles
  cases r with
  | error e =>
    refine ⟨WinFs.close { fs1 with win := s' } fs.nextHandle, .error e, ?_,
      ⟨wf2.win, wf2.names, wf2.files, wf2.once, fun q g w hq => ?_, wf2.views⟩, ⟨others.names, others.files⟩, hhand,
      (fun _ _ h => by cases h), fun e' he => ?_⟩
    · simp only [WinFs.openIf, h1, h2, bind, Except.bind]; rfl
    · simp only [WinFs.close] at hq
      split at hq
      · cases hq
      · exact wf2.opened q g w hq
    · injection he with he
      subst he
      refine ⟨?_, (m.err e rfl).1.trans op.quiet.views, (m.err e rfl).2⟩
      funext q
      simp only [WinFs.close, op.opened]
      by_cases hq : q = fs.nextHandle
      · rw [if_pos hq, hq, hnew]
      · rw [if_neg hq, if_neg hq]
  | ok mo =>
    refine ⟨{ fs1 with win := s' }, .ok (mo, fs.nextHandle), ?_, wf2, others, hhand, ?_, (fun _ h => by cases h)⟩
    · simp only [WinFs.openIf, h1, h2, bind, Except.bind]; rfl
    intro mo' h he
    injection he with he
    injection he with he1 he2
    subst he1 he2
    obtain ⟨n, k1, k2, k3, k4, k5, k6⟩ := m.ok mo rfl
    rw [op.len] at k1
    injection k1 with k1
    subst k1
    refine ⟨f, l, op.found, op.name, hnew, op.opened, k2, fun i hi => ?_, k4, fun h => (k5 h).trans op.quiet.views,
      fun mm hm => ?_⟩
    · show s'.bytes.file f i = _
      rw [k3 i hi]
      split
      · rename_i hc
        refine op.bytes i ?_
        unfold cutLen at hc
        split at hc <;> omega
      · rfl
    · obtain ⟨h3, v, hv⟩ := k6 mm hm
      exact ⟨h3, v, WinMap.from op.quiet hv⟩

/-- C158: `open` is `open_if` with an error for a range that is not inside the file; the file is closed then. -/
theorem C158_open (tab : SysTable) {fs fs' : WinFs} {o : Options} {path : String} {r : Result (Option MapMut × Nat)}
    (h : fs.openIf tab t o path = .ok (fs', r)) :
    fs.open_ tab t o path = .ok (match (generalizing := false) r with
      | .error e => (fs', .error e)
      | .ok (some m, hd) => (fs', .ok (m, hd))
      | .ok (none, hd) => (fs'.close hd, .error (Error.input .mapFile .invalidRange))) := by
  simp only [WinFs.openIf] at h
  simp only [WinFs.open_]
  split at h
  · cases h; rfl
  · rename_i fs1 hd _
    simp only [WinFs.map, bind, Except.bind] at h ⊢
    split at h
    · cases h
    · rename_i x hx
      obtain ⟨fs2, r2⟩ := x
      cases r2 with
      | error e => cases h; rfl
      | ok mo =>
        cases h
        cases mo <;> rfl

/-- C158: without write access, `create`, `create_new` and `truncate` are refused before Windows is asked
anything. -/
theorem C158_needs_write (tab : SysTable) (t : Target) (fs : WinFs) (o : Options) (path : String)
    (read : o.openOptions.write = false)
    (asks : o.openOptions.truncate = true ∨ o.openOptions.create = true ∨ o.openOptions.createNew = true) :
    fs.openIf tab t o path = .ok (fs, .error (Error.io .mapFile (SysError.toIo tab (.os 87)))) ∧
    fs.open_ tab t o path = .ok (fs, .error (Error.io .mapFile (SysError.toIo tab (.os 87)))) := by
  have h : o.openOptions.creation = none := by
    unfold OpenOptions.creation
    rw [if_pos]
    simp only [read, Bool.not_false, Bool.true_and, Bool.or_eq_true]
    rcases asks with h | h | h <;> simp [h]
  constructor
  · simp only [WinFs.openIf, WinFs.openFile, h]; rfl
  · simp only [WinFs.open_, WinFs.openFile, h]; rfl

/-- What a refused `CreateFileW` makes of `open_if`. -/
theorem openIf_refused (tab : SysTable) {fs fs1 : WinFs} {o : Options} {path : String} {code : Nat}
    (h : fs.openFile tab o.openOptions path = (fs1, .error (SysError.toIo tab (.os code)))) (same : WinFsSame fs fs1) :
    ∃ fs' e, fs.openIf tab t o path = .ok (fs', .error e) ∧ WinFsSame fs fs' :=
  ⟨fs1, Options.mapFileErr (SysError.toIo tab (.os code)), by simp only [WinFs.openIf, h]; rfl, same⟩

/-- C158: with `create_new` an existing file is never opened, whatever else was asked for, and stays as it is;
if the call succeeds the file is new. -/
theorem C158_create_new (tab : SysTable) {fs : WinFs} (wf : WinFsWf t fs) {o : Options} (fits : Fits t o) (path : String)
    (new : o.openOptions.createNew = true) :
    (∀ f, fs.names path = some f → ∃ fs' e, fs.openIf tab t o path = .ok (fs', .error e) ∧ WinFsSame fs fs') ∧
    ∀ fs' mo h, fs.openIf tab t o path = .ok (fs', .ok (mo, h)) →
      fs.names path = none ∧ fs'.names path = some fs.nextFile ∧ fs'.opened h = some (fs.nextFile, true) := by
  constructor
  · intro f hn
    rcases openFile_out tab wf o.openOptions path with ⟨fs1, code, h1, same, -⟩ | ⟨fs1, f, l, -, op⟩
    · exact openIf_refused tab h1 same
    · cases op.found with
      | there _ may => rw [new] at may; cases may
      | new name => rw [hn] at name; cases name
  · intro fs' mo h he
    obtain ⟨fs2, r, h1, -, -, -, h2, -⟩ := C158_open_if tab wf fits path
    rw [he] at h1
    injection h1 with h1
    injection h1 with h1 h1'
    subst h1
    obtain ⟨f, l, found, name, -, op, -⟩ := h2 mo h h1'.symm
    cases found with
    | there _ may => rw [new] at may; cases may
    | new hn may =>
      refine ⟨hn, name, ?_⟩
      rw [op, may.1]
      exact if_pos rfl

/-- C158: a file that does not exist is not opened unless it is to be created. -/
theorem C158_missing (tab : SysTable) {fs : WinFs} (wf : WinFsWf t fs) {o : Options} {path : String}
    (missing : fs.names path = none) (create : o.openOptions.create = false) (new : o.openOptions.createNew = false) :
    ∃ fs' e, fs.openIf tab t o path = .ok (fs', .error e) ∧ WinFsSame fs fs' := by
  rcases openFile_out tab wf o.openOptions path with ⟨fs1, code, h1, same, -⟩ | ⟨fs1, f, l, -, op⟩
  · exact openIf_refused tab h1 same
  · cases op.found with
    | there name => rw [missing] at name; cases name
    | new _ may =>
      rw [create, new] at may
      rcases may.2 with h | h <;> cases h

/-- C158: without write access no file changes, whatever the options: no byte, no length, no name.  And no map
through which it could is made. -/
theorem C158_reading (tab : SysTable) {fs : WinFs} (wf : WinFsWf t fs) {o : Options} (fits : Fits t o) (path : String)
    (read : o.openOptions.write = false) {fs' : WinFs} {r : Result (Option MapMut × Nat)}
    (call : fs.openIf tab t o path = .ok (fs', r)) :
    fs'.win.files = fs.win.files ∧ fs'.win.bytes.file = fs.win.bytes.file ∧ fs'.names = fs.names ∧
      ∀ m h, r = .ok (some m, h) → o.protect ≠ .readWrite := by
  rcases openFile_out tab wf o.openOptions path with ⟨fs1, code, h1, same, -⟩ | ⟨fs1, f, l, h1, op⟩
  · simp only [WinFs.openIf, h1, pure, Except.pure] at call
    cases call
    exact ⟨by rw [same.win], by rw [same.win], same.names, fun _ _ h => by cases h⟩
  · have hh : fs1.opened fs.nextHandle = some (f, o.openOptions.write) := by rw [op.opened]; exact if_pos rfl
    obtain ⟨s', r2, h2, m, -⟩ := mapIf_fs tab op.wf fits hh
    obtain ⟨g1, g2⟩ := op.reading read
    obtain ⟨k1, k2, k3⟩ := m.reading read
    rw [g1] at k1 k2
    simp only [WinFs.openIf, h1, h2, bind, Except.bind] at call
    cases r2 with
    | error e => cases call; exact ⟨k1, k2, g2, fun _ _ h => by cases h⟩
    | ok mo =>
      cases call
      refine ⟨k1, k2, g2, fun m h he => ?_⟩
      injection he with he
      injection he with he
      exact k3 m (by rw [he])

/-- C158: a file of which there is a map is not truncated by opening it: the call fails and the file stays as it
is. -/
theorem C158_mapped (tab : SysTable) {fs : WinFs} (wf : WinFsWf t fs) {o : Options} {path : String} {f : Nat}
    (name : fs.names path = some f) {v : WinView} (mapped : v ∈ fs.win.views) (file : v.sec.file = some f)
    (trunc : o.openOptions.truncate = true) :
    ∃ fs' e, fs.openIf tab t o path = .ok (fs', .error e) ∧ WinFsSame fs fs' := by
  have hv : fs.viewed f = true := List.any_eq_true.mpr ⟨v, mapped, decide_eq_true file⟩
  rcases openFile_out tab wf o.openOptions path with ⟨fs1, code, h1, same, -⟩ | ⟨fs1, g, l, h1, op⟩
  · exact openIf_refused tab h1 same
  · exfalso
    have hnew : o.openOptions.createNew = false := by
      cases op.found with
      | there _ may => exact may
      | new n => rw [name] at n; cases n
    unfold WinFs.openFile at h1
    cases hm : o.openOptions.creation with
    | none => rw [hm] at h1; cases h1
    | some mode =>
      have hmode : mode = .createAlways ∨ mode = .truncateExisting := by
        unfold OpenOptions.creation at hm
        rw [trunc, hnew] at hm
        cases h2 : o.openOptions.create <;> cases h3 : o.openOptions.write <;> rw [h2, h3] at hm <;> simp at hm <;>
          simp [← hm]
      rw [hm] at h1
      simp only [WinFs.createFile, name] at h1
      have hv' : WinFs.viewed { fs with asked := (path, o.openOptions.write, mode) :: fs.asked } f = true := hv
      rcases hmode with rfl | rfl
      · simp only [hv', if_true] at h1
        split at h1 <;> cases h1
      · simp only [hv', if_true] at h1
        split at h1 <;> cases h1

/-- A program with one file "data" (number 0, 100 bytes). -/
def winDisk (bad : List Nat) : WinFs where
  win := { winDemo bad with files := fun f => if f = 0 then some 100 else none }
  names := fun p => if p = "data" then some 0 else none
  opened := fun _ => none
  nextHandle := 3
  nextFile := 1
  asks := fun _ => ⟨true, 0, 0⟩
  asked := []

theorem winDisk_wf (bad : List Nat) : WinFsWf ⟨.w64, true⟩ (winDisk bad) := by
  refine ⟨⟨⟨12, 16, rfl, rfl, by decide, by decide⟩, fun _ h => (nomatch h), fun _ h => (nomatch h), fun _ _ h => (nomatch h)⟩,
    fun p f h => ?_, fun f => ?_, fun p q f h1 h2 => ?_, fun _ _ _ h => (nomatch h), fun _ h => (nomatch h)⟩
  · simp only [winDisk] at h ⊢; split at h <;> cases h; omega
  · simp only [winDisk]
    constructor
    · intro h; exact ⟨100, if_pos (by omega)⟩
    · rintro ⟨n, h⟩; split at h
      · omega
      · cases h
  · simp only [winDisk] at h1 h2
    split at h1
    · split at h2
      · simp_all
      · cases h2
    · cases h1

/-- What a call says: the length of the map, if any, and the lengths of files 0 and 1. -/
def winSaid (x : Exec (WinFs × Result (Option MapMut × Nat))) : Option (Option (Option Nat) × Option Nat × Option Nat) :=
  match x with
  | .ok (fs, .ok (m, _)) => some (some (m.map (·.len)), fs.win.files 0, fs.win.files 1)
  | .ok (fs, .error _) => some (none, fs.win.files 0, fs.win.files 1)
  | .error _ => none

/-- Non-vacuity: reading a file from byte 10 on; creating one of 50 bytes; the same of an existing one, with
`create_new`, and with `truncate`; a range that does not exist; and a failing second call. -/
example :
    winSaid ((winDisk []).openIf winTab ⟨.w64, true⟩ (Options.new.setOffset 10) "data") = some (some (some 90), some 100, none) ∧
    winSaid ((winDisk []).openIf winTab ⟨.w64, true⟩ ((Options.newMut.create true).setResize (.exact 50)) "new") =
      some (some (some 50), some 100, some 50) ∧
    winSaid ((winDisk []).openIf winTab ⟨.w64, true⟩ ((Options.newMut.createNew true).setResize (.exact 50)) "data") =
      some (none, some 100, none) ∧
    winSaid ((winDisk []).openIf winTab ⟨.w64, true⟩ ((Options.newMut.setTruncate true).setResize (.exact 50)) "data") =
      some (some (some 50), some 50, none) ∧
    winSaid ((winDisk []).openIf winTab ⟨.w64, true⟩ (Options.new.setOffset 101) "data") = some (some none, some 100, none) ∧
    winSaid ((winDisk [1]).openIf winTab ⟨.w64, true⟩ (Options.new.setOffset 10) "data") = some (none, some 100, none) ∧
    winSaid ((winDisk []).openIf winTab ⟨.w64, true⟩ (Options.new.setResize (.exact 50)) "data") = some (none, some 100, none) :=
  ⟨rfl, rfl, rfl, rfl, rfl, rfl, rfl⟩

example : Fits ⟨.w64, true⟩ (Options.new.setOffset 10) := ⟨trivial, trivial, by decide⟩

/-- Non-vacuity: the file is mapped, and cannot be truncated any more. -/
example : WinFsWf ⟨.w64, true⟩ (winDisk []) ∧
    ∃ fs m h, (winDisk []).openIf winTab ⟨.w64, true⟩ Options.new "data" = .ok (fs, .ok (some m, h)) ∧
    fs.names "data" = some 0 ∧ (∃ v, v ∈ fs.win.views ∧ v.sec.file = some 0) ∧
    winSaid (fs.openIf winTab ⟨.w64, true⟩ (Options.newMut.setTruncate true) "data") = some (none, some 100, none) :=
  ⟨winDisk_wf [], _, _, _, rfl, rfl, ⟨_, List.mem_cons_self, rfl⟩, by decide +kernel⟩

end Vmap
