import Verif.Spec.WinFile
import Verif.Props.WinBytes
/-
Opening files on Windows (C158), lemmas.
-/
namespace Vmap
open Spec Win

variable {tab : SysTable} {t : Target}

theorem WinQuiet.deny (s : Vmap.Win) : WinQuiet s s.deny :=
  ⟨⟨rfl, rfl, rfl, rfl⟩, rfl, rfl, ⟨Nat.le_refl _, fun _ _ => ⟨rfl, rfl⟩, fun _ _ _ _ _ _ h => h⟩⟩

theorem Win.deny_ok (s : Vmap.Win) : s.deny.choice.ok = false := by
  simp only [Win.choice, Win.deny, if_true]

theorem Win.deny_code (s : Vmap.Win) : s.deny.choice.code = 5 := by
  simp only [Win.choice, Win.deny, if_true]

theorem setLen_denied (s : Vmap.Win) (file n : Nat) :
    s.deny.setLen tab file n = (s.deny.did (.setEndOfFile file n), .error (SysError.toIo tab (.os 5))) := by
  simp only [Win.setLen, s.deny_ok, Bool.false_eq_true, false_and, if_false, Win.ioErr, s.deny_code]

/-- What a refused call leaves behind. -/
structure Denied (s s' : Vmap.Win) : Prop where
  quiet : WinQuiet s s'
  files : s'.files = s.files
  bytes : s'.bytes.file = s.bytes.file

theorem mapStep_denied (s : Vmap.Win) (hf : Fits t o) {file flen : Nat} (wf : WinWf t s) (hfl : flen < t.lim) :
    (s.deny.mapStep t o file flen = .ok (s.deny, .ok none) ∧ s.mapStep t o file flen = .ok (s, .ok none)) ∨
      ∃ s', s.deny.mapStep t o file flen = .ok (s', .error (Error.lastOsError .mapFileHandle 5)) ∧ Denied s s' := by
  obtain ⟨s1, r1, h1, -⟩ := C81_map_partial t ((WinQuiet.deny s).wf wf) hf (file := file) hfl
  rw [h1]
  simp only [Win.mapStep, bind, Except.bind, pure, Except.pure] at h1 ⊢
  split at h1
  · rename_i hlt
    cases h1
    rw [if_pos hlt]
    exact .inl ⟨rfl, rfl⟩
  rename_i hlt
  rw [if_neg hlt]
  split at h1
  · cases h1
  rename_i mx hmx
  split at h1
  · rename_i hnone
    cases h1
    left
    exact ⟨rfl, rfl⟩
  rename_i len hlen
  right
  split at h1
  · cases h1
  split at h1
  · cases h1
  split at h1
  · cases h1
  have hm : ∀ a b, s.deny.mapFile t file a b o.protect =
      .ok (s.deny.did (.createFileMapping (some file) (Win.mapFileBits o.protect).1 0 0),
        .error (Error.lastOsError .mapFileHandle 5)) := by
    intro a b
    have h0 : Win.lo32 0 = 0 := rfl
    simp only [Win.mapFile, bind, Except.bind, Win.handleNew, hi32_eq t.lim_pos, h0, Win.createFileMapping, s.deny_ok,
      Bool.false_eq_true, false_and, if_false, s.deny_code]
    rfl
  rw [hm] at h1
  cases h1
  exact ⟨_, rfl, ⟨(WinQuiet.deny s).trans (.did _ _), rfl, rfl⟩⟩

/-- `map_if` through a handle is `map_if`, but for calls refused because the handle is not for writing. -/
theorem mapIfAs_out (tab : SysTable) (wf : WinWf t s) {o : Options} (hf : Fits t o) (w : Bool) (file : Nat) :
    (s.mapIfAs tab t w o file = s.mapIf tab t o file ∧ (w = false → ∀ s' r, s.mapIf tab t o file = .ok (s', r) →
      s'.files = s.files ∧ s'.bytes.file = s.bytes.file ∧ ∀ m, r = .ok (some m) → o.protect ≠ .readWrite)) ∨
    (w = false ∧ ∃ s' e, s.mapIfAs tab t w o file = .ok (s', .error e) ∧ Denied s s' ∧
      (e = Options.mapFileErr (SysError.toIo tab (.os 5)) ∨ e = Error.lastOsError .mapFileHandle 5)) := by
  cases w with
  | true =>
    left
    refine ⟨?_, fun h => by cases h⟩
    have h1 : ∀ (s : Vmap.Win) f n, s.resizeFileAs tab true f n = s.resizeFile tab f n := fun _ _ _ => rfl
    have h2 : ∀ (s : Vmap.Win) f n, s.truncateStepAs tab true o f n = s.truncateStep tab o f n := by
      intro s f n; simp only [truncateStepAs, truncateStep, h1]
    have h3 : ∀ (s : Vmap.Win) f n, s.resizeStepAs tab true o f n = s.resizeStep tab o f n := by
      intro s f n; simp only [resizeStepAs, resizeStep, h1]; rfl
    have h4 : ∀ (s : Vmap.Win) f n, s.mapStepAs t true o f n = s.mapStep t o f n := fun _ _ _ => rfl
    simp only [mapIfAs, mapIf, h2, h3, h4]; rfl
  | false =>
    have hd : ∀ (s : Vmap.Win) f n, s.resizeFileAs tab false f n =
        (s.deny.did (.setEndOfFile f (asU64 n)), .error (Options.mapFileErr (SysError.toIo tab (.os 5)))) := by
      intro s f n
      simp only [resizeFileAs, setLenAs, Bool.false_eq_true, if_false, setLen_denied]
    rcases winFileLen_cases tab s file with ⟨s1, code, h1, q1, f1⟩ | ⟨s1, n, h1, hn, q1, f1, b1⟩
    · left
      have e2 : s.mapIf tab t o file = .ok (s1, .error (Options.mapFileErr (SysError.toIo tab (.os code)))) := by
        simp only [mapIf, h1]; rfl
      refine ⟨?_, fun _ s' r h => ?_⟩
      · rw [e2]; simp only [mapIfAs, h1]; rfl
      · rw [e2] at h
        cases h
        exact ⟨f1.1, f1.2, fun _ h => by cases h⟩
    have hlim : asUsize t n < t.lim := Nat.mod_lt _ t.lim_pos
    have den : ∀ f k, Denied s (s1.deny.did (.setEndOfFile f k)) := fun f k =>
      ⟨q1.trans ((WinQuiet.deny s1).trans (.did _ _)), f1, b1⟩
    have e1 : s.mapIfAs tab t false o file = (match s1.truncateStepAs tab false o file (asUsize t n) with
        | (s, .error e) => .ok (s, .error e)
        | (s, .ok flen) => match s.resizeStepAs tab false o file flen with
          | (s, .error e) => .ok (s, .error e)
          | (s, .ok flen) => s.mapStepAs t false o file flen) := by
      simp only [mapIfAs, h1]; rfl
    have e2 : s.mapIf tab t o file = (match s1.truncateStep tab o file (asUsize t n) with
        | (s, .error e) => .ok (s, .error e)
        | (s, .ok flen) => match s.resizeStep tab o file flen with
          | (s, .error e) => .ok (s, .error e)
          | (s, .ok flen) => s.mapStep t o file flen) := by
      simp only [mapIf, h1]; rfl
    by_cases ht : (o.truncate && decide (asUsize t n > 0)) = true
    · right
      refine ⟨rfl, _, _, ?_, den file (asU64 0), .inl rfl⟩
      rw [e1, truncateStepAs, if_pos ht, hd]
    simp only [truncateStepAs, truncateStep, if_neg ht] at e1 e2
    have hr : (∃ k, s1.resizeStepAs tab false o file (asUsize t n) = (s1.deny.did (.setEndOfFile file k),
        .error (Options.mapFileErr (SysError.toIo tab (.os 5))))) ∨
        (s1.resizeStepAs tab false o file (asUsize t n) = (s1, .ok (asUsize t n)) ∧
          s1.resizeStep tab o file (asUsize t n) = (s1, .ok (asUsize t n))) := by
      unfold resizeStepAs resizeStep
      cases o.resize with
      | exact sz => exact .inl ⟨_, hd _ _ _⟩
      | min sz =>
        dsimp only
        by_cases hc : sz > asUsize t n
        · rw [if_pos hc]; exact .inl ⟨_, hd _ _ _⟩
        · rw [if_neg hc, if_neg hc]; exact .inr ⟨rfl, rfl⟩
      | max sz =>
        dsimp only
        by_cases hc : sz < asUsize t n
        · rw [if_pos hc]; exact .inl ⟨_, hd _ _ _⟩
        · rw [if_neg hc, if_neg hc]; exact .inr ⟨rfl, rfl⟩
      | endOf => exact .inr ⟨rfl, rfl⟩
    rcases hr with ⟨k, hr⟩ | ⟨hr, hr'⟩
    · right
      refine ⟨rfl, _, _, ?_, den file k, .inl rfl⟩
      rw [e1, hr]
    rw [hr] at e1
    rw [hr'] at e2
    dsimp only at e1 e2
    have wf1 := q1.wf wf
    by_cases hp : o.protect = .readWrite
    · have e3 : s1.mapStepAs t false o file (asUsize t n) = (match s1.deny.mapStep t o file (asUsize t n) with
          | .ok (_, .ok none) => .ok (s1, .ok none)
          | x => x) := by
        simp only [mapStepAs, hp, ne_eq, not_true, decide_false, Bool.or_self, Bool.false_eq_true, if_false]; rfl
      rcases mapStep_denied (file := file) s1 hf wf1 hlim with ⟨g1, g2⟩ | ⟨s', g1, g2⟩
      · left
        refine ⟨?_, fun _ s' r h => ?_⟩
        · rw [e1, e2, e3, g1, g2]
        · rw [e2, g2] at h
          cases h
          exact ⟨f1, b1, fun _ h => by cases h⟩
      · right
        refine ⟨rfl, s', _, ?_, ⟨q1.trans g2.quiet, g2.files.trans f1, g2.bytes.trans b1⟩, .inr rfl⟩
        rw [e1, e3, g1]
    · left
      obtain ⟨s2, r2, g1, g2, -⟩ := C81_map_partial t wf1 hf (file := file) hlim
      refine ⟨?_, fun _ s' r h => ?_⟩
      · rw [e1, e2]
        simp only [mapStepAs, ne_eq, hp, not_false_eq_true, decide_true, Bool.or_true, if_true]
      · rw [e2, g1] at h
        cases h
        exact ⟨g2.files.trans f1, g2.bytes.file.trans b1, fun _ _ => hp⟩

/-- `CreateFileW` has handed out a handle. -/
structure Opening (t : Target) (fs fs1 : WinFs) (o : OpenOptions) (path : String) (f l : Nat) : Prop where
  found : WinFound fs o path f l
  name : fs1.names path = some f
  others : WinOthers fs fs1 path
  opened : fs1.opened = fun q => if q = fs.nextHandle then some (f, o.write) else fs.opened q
  quiet : WinQuiet fs.win fs1.win
  wf : WinFsWf t fs1
  len : fs1.win.files f = some l
  bytes : ∀ i, i < l → fs1.win.bytes.file f i = fs.win.bytes.file f i
  reading : o.write = false → fs1.win = fs.win ∧ fs1.names = fs.names

theorem Spec.WinFsWf.asked {fs : WinFs} (wf : WinFsWf t fs) (a : List (String × Bool × WinCreation)) :
    WinFsWf t { fs with asked := a } := ⟨wf.win, wf.names, wf.files, wf.once, wf.opened, wf.views⟩

/-- A handle to a file that is there. -/
theorem Spec.WinFsWf.addHandle {fs : WinFs} (wf : WinFsWf t fs) {f : Nat} (hf : f < fs.nextFile) (w : Bool) :
    WinFsWf t (fs.addHandle f w).1 := by
  refine ⟨wf.win, wf.names, wf.files, wf.once, fun h g w' e => ?_, wf.views⟩
  simp only [WinFs.addHandle] at e ⊢
  split at e
  · cases e; exact ⟨hf, by omega⟩
  · have := wf.opened h g w' e; exact ⟨this.1, by omega⟩

/-- Emptying a file of which there is no view. -/
theorem WinQuiet.empty {fs : WinFs} {f : Nat} (hv : ∀ v, v ∈ fs.win.views → v.sec.file ≠ some f) :
    WinQuiet fs.win (fs.empty f).win := by
  refine ⟨⟨rfl, rfl, rfl, rfl⟩, rfl, rfl, ⟨Nat.le_refl _, fun _ _ => ⟨rfl, rfl⟩, fun v h g hg k hk hl n hn => ?_⟩⟩
  refine hl n ?_
  have hne : g ≠ f := by rintro rfl; exact hv v h hg
  simpa only [WinFs.empty, if_neg hne] using hn

theorem WinFs.empty_bytes (fs : WinFs) {f g : Nat} (hne : g ≠ f) :
    (fs.empty f).win.bytes.file g = fs.win.bytes.file g := by
  funext i
  simp only [WinFs.empty, WinBytes.resize, if_neg (show ¬ (g = f ∧ (0 ≤ i ∨ 0 ≤ i)) from fun h => hne h.1)]

theorem Spec.WinFsWf.empty {fs : WinFs} (wf : WinFsWf t fs) {f : Nat} (hf : f < fs.nextFile) : WinFsWf t (fs.empty f) := by
  refine ⟨⟨wf.win.sizes, wf.win.views, wf.win.reserved, wf.win.handles⟩, wf.names, fun g => ?_, wf.once, wf.opened, wf.views⟩
  simp only [WinFs.empty]
  by_cases hg : g = f
  · subst hg; simp only [if_true]; exact ⟨fun _ => ⟨0, rfl⟩, fun _ => hf⟩
  · rw [if_neg hg]; exact wf.files g

theorem Spec.WinFsWf.newEmpty {fs : WinFs} (wf : WinFsWf t fs) {path : String} :
    WinFsWf t (fs.newEmpty path) := by
  refine ⟨⟨wf.win.sizes, wf.win.views, wf.win.reserved, wf.win.handles⟩, fun p g h => ?_, fun g => ?_, fun p q g h1 h2 => ?_,
    fun h g w e => ?_, fun v hv g hg => ?_⟩
  · simp only [WinFs.newEmpty, WinFs.empty] at h ⊢
    split at h
    · cases h; omega
    · have := wf.names p g h; omega
  · simp only [WinFs.newEmpty, WinFs.empty]
    by_cases hg : g = fs.nextFile
    · subst hg; simp only [if_true]; exact ⟨fun _ => ⟨0, rfl⟩, fun _ => by omega⟩
    · rw [if_neg hg, ← wf.files g]; omega
  · simp only [WinFs.newEmpty, WinFs.empty] at h1 h2
    split at h1 <;> split at h2
    · simp_all
    · cases h1; have := wf.names q _ h2; omega
    · cases h2; have := wf.names p _ h1; omega
    · exact wf.once p q g h1 h2
  · have := wf.opened h g w e; exact ⟨Nat.lt_succ_of_lt this.1, this.2⟩
  · exact Nat.lt_succ_of_lt (wf.views v hv g hg)

theorem WinFs.not_viewed {fs : WinFs} {f : Nat} (h : ¬ fs.viewed f = true) :
    ∀ v, v ∈ fs.win.views → v.sec.file ≠ some f := by
  intro v hv hc
  exact h (List.any_eq_true.mpr ⟨v, hv, decide_eq_true hc⟩)

/-- Opening the file that is there. -/
theorem opening_there {fs : WinFs} (wf : WinFsWf t fs) {o : OpenOptions} {path : String} {f : Nat}
    (name : fs.names path = some f) (new : o.createNew = false) (tr : o.truncate = false)
    (a : List (String × Bool × WinCreation)) :
    ∃ l, Opening t fs (WinFs.addHandle { fs with asked := a } f o.write).1 o path f l := by
  have hf := wf.names path f name
  obtain ⟨l, hl⟩ := (wf.files f).mp hf
  have hfound := WinFound.there (o := o) name new hl
  rw [tr] at hfound
  exact ⟨l, hfound, name, ⟨fun _ _ => rfl, fun _ _ _ => ⟨rfl, rfl⟩⟩, rfl, .refl _, (wf.asked a).addHandle hf _, hl,
    fun _ _ => rfl, fun _ => ⟨rfl, rfl⟩⟩

/-- Opening and emptying the file that is there. -/
theorem opening_empty {fs : WinFs} (wf : WinFsWf t fs) {o : OpenOptions} {path : String} {f : Nat}
    (name : fs.names path = some f) (new : o.createNew = false) (tr : o.truncate = true) (wr : o.write = true)
    (hv : ¬ fs.viewed f = true) (a : List (String × Bool × WinCreation)) :
    ∃ l, Opening t fs ((WinFs.empty { fs with asked := a } f).addHandle f o.write).1 o path f l := by
  have hf := wf.names path f name
  obtain ⟨l, hl⟩ := (wf.files f).mp hf
  have hfound := WinFound.there (o := o) name new hl
  rw [tr] at hfound
  refine ⟨0, hfound, name, ⟨fun _ _ => rfl, fun g _ hne => ?_⟩, rfl, .empty (WinFs.not_viewed hv),
    ((wf.asked a).empty hf).addHandle hf _, ?_, fun i hi => absurd hi (Nat.not_lt_zero i), fun h => by rw [wr] at h; cases h⟩
  · have hne : g ≠ f := by rintro rfl; exact hne name
    refine ⟨?_, WinFs.empty_bytes { fs with asked := a } hne⟩
    simp only [WinFs.addHandle, WinFs.empty, if_neg hne]
  · simp only [WinFs.addHandle, WinFs.empty, if_true]

/-- Opening a new file. -/
theorem opening_new {fs : WinFs} (wf : WinFsWf t fs) {o : OpenOptions} {path : String}
    (name : fs.names path = none) (wr : o.write = true) (cr : o.create = true ∨ o.createNew = true)
    (a : List (String × Bool × WinCreation)) :
    ∃ l, Opening t fs ((WinFs.newEmpty { fs with asked := a } path).addHandle fs.nextFile o.write).1 o path fs.nextFile l := by
  have hv : ∀ v, v ∈ fs.win.views → v.sec.file ≠ some fs.nextFile := fun v hv hc =>
    absurd (wf.views v hv _ hc) (Nat.lt_irrefl _)
  refine ⟨0, .new name ⟨wr, cr⟩, ?_, ⟨fun p hp => ?_, fun g hg _ => ?_⟩, rfl, .empty hv,
    ((wf.asked a).newEmpty).addHandle (Nat.lt_succ_self _) _, ?_, fun i hi => absurd hi (Nat.not_lt_zero i),
    fun h => by rw [wr] at h; cases h⟩
  · simp only [WinFs.addHandle, WinFs.newEmpty, WinFs.empty, if_true]
  · simp only [WinFs.addHandle, WinFs.newEmpty, WinFs.empty, if_neg hp]
  · have hne : g ≠ fs.nextFile := by omega
    refine ⟨?_, WinFs.empty_bytes { fs with asked := a } hne⟩
    simp only [WinFs.addHandle, WinFs.newEmpty, WinFs.empty, if_neg hne]
  · simp only [WinFs.addHandle, WinFs.newEmpty, WinFs.empty, if_true]

/-- What `OpenOptions::open` does. -/
theorem openFile_out (tab : SysTable) {fs : WinFs} (wf : WinFsWf t fs) (o : OpenOptions) (path : String) :
    (∃ fs1 code, fs.openFile tab o path = (fs1, .error (SysError.toIo tab (.os code))) ∧ WinFsSame fs fs1 ∧
      WinFsWf t fs1) ∨
    ∃ fs1 f l, fs.openFile tab o path = (fs1, .ok fs.nextHandle) ∧ Opening t fs fs1 o path f l := by
  unfold WinFs.openFile
  cases hm : o.creation with
  | none => exact .inl ⟨fs, 87, rfl, ⟨rfl, rfl, rfl⟩, wf⟩
  | some mode =>
    have bad : ∀ c, (∃ fs1 code, WinFs.ioErr tab (({ fs with asked := (path, o.write, mode) :: fs.asked } : WinFs),
        (.error c : Except Nat Nat)) = (fs1, .error (SysError.toIo tab (.os code))) ∧ WinFsSame fs fs1 ∧ WinFsWf t fs1) :=
      fun c => ⟨_, c, rfl, ⟨rfl, rfl, rfl⟩, wf.asked _⟩
    unfold WinFs.createFile
    dsimp only
    by_cases hc : fs.choice.ok = true
    · rw [if_pos hc]
      have hcr : o.write = false → mode = .openExisting ∧ o.truncate = false ∧ o.create = false ∧ o.createNew = false := by
        intro hw
        unfold OpenOptions.creation at hm
        cases h1 : o.truncate <;> cases h2 : o.create <;> cases h3 : o.createNew <;> simp_all
      have hmode : o.createNew = decide (mode = .createNew) ∧
          (o.createNew = false → o.truncate = decide (mode = .createAlways ∨ mode = .truncateExisting) ∧
            o.create = decide (mode = .createAlways ∨ mode = .openAlways)) := by
        unfold OpenOptions.creation at hm
        cases h1 : o.truncate <;> cases h2 : o.create <;> cases h3 : o.createNew <;> cases h4 : o.write <;>
          simp_all <;> subst hm <;> simp
      have hw : mode ≠ .openExisting → o.write = true := by
        intro h
        cases hw : o.write with
        | true => rfl
        | false => exact absurd (hcr hw).1 h
      cases hn : fs.names path with
      | some f =>
        dsimp only
        cases mode with
        | createNew => exact .inl (bad 80)
        | openExisting =>
          obtain ⟨l, h⟩ := opening_there wf hn hmode.1 (hmode.2 hmode.1).1 ((path, o.write, .openExisting) :: fs.asked)
          exact .inr ⟨_, f, l, rfl, h⟩
        | openAlways =>
          obtain ⟨l, h⟩ := opening_there wf hn hmode.1 (hmode.2 hmode.1).1 ((path, o.write, .openAlways) :: fs.asked)
          exact .inr ⟨_, f, l, rfl, h⟩
        | createAlways =>
          dsimp only
          split
          · exact .inl (bad 1224)
          · rename_i hv
            obtain ⟨l, h⟩ := opening_empty wf hn hmode.1 (hmode.2 hmode.1).1 (hw (by decide)) hv
              ((path, o.write, .createAlways) :: fs.asked)
            exact .inr ⟨_, f, l, rfl, h⟩
        | truncateExisting =>
          dsimp only
          split
          · exact .inl (bad 1224)
          · rename_i hv
            obtain ⟨l, h⟩ := opening_empty wf hn hmode.1 (hmode.2 hmode.1).1 (hw (by decide)) hv
              ((path, o.write, .truncateExisting) :: fs.asked)
            exact .inr ⟨_, f, l, rfl, h⟩
      | none =>
        dsimp only
        cases mode with
        | openExisting => exact .inl (bad 2)
        | truncateExisting => exact .inl (bad 2)
        | createNew =>
          obtain ⟨l, h⟩ := opening_new wf hn (hw (by decide)) (.inr hmode.1) ((path, o.write, .createNew) :: fs.asked)
          exact .inr ⟨_, _, l, rfl, h⟩
        | createAlways =>
          obtain ⟨l, h⟩ := opening_new wf hn (hw (by decide)) (.inl (hmode.2 hmode.1).2)
            ((path, o.write, .createAlways) :: fs.asked)
          exact .inr ⟨_, _, l, rfl, h⟩
        | openAlways =>
          obtain ⟨l, h⟩ := opening_new wf hn (hw (by decide)) (.inl (hmode.2 hmode.1).2)
            ((path, o.write, .openAlways) :: fs.asked)
          exact .inr ⟨_, _, l, rfl, h⟩
    · rw [if_neg hc]
      exact .inl (bad _)

/-- What `map_if` through a handle does. -/
structure Mapping (tab : SysTable) (t : Target) (s s' : Vmap.Win) (o : Options) (file : Nat) (w : Bool) (r : Result (Option MapMut)) :
    Prop where
  wf : WinWf t s'
  handles : s'.handles = s.handles
  lens : ∀ f, f ≠ file → s'.files f = s.files f
  bytes : ∀ f, f ≠ file → s'.bytes.file f = s.bytes.file f
  there : ∃ n, s'.files file = some n
  ok : ∀ x, r = .ok x → ∃ n, s.files file = some n ∧ s'.files file = some (leftLen o.truncate o.resize n (n % t.lim)) ∧
    (∀ i, i < leftLen o.truncate o.resize n (n % t.lim) → s'.bytes.file file i =
      if i < cutLen o.truncate n (n % t.lim) then s.bytes.file file i else 0) ∧
    (x = none ↔ ¬ InRange (newLen o.truncate o.resize (n % t.lim)) o.offset o.len) ∧
    (x = none → s'.views = s.views) ∧
    ∀ m, x = some m → m.len = wanted (newLen o.truncate o.resize (n % t.lim)) o.offset o.len ∧
      ∃ v, WinMap t s s' m (some file) o.offset o.protect v
  err : ∀ e, r = .error e → s'.views = s.views ∧ ∃ code, e = Error.io .mapFile (SysError.toIo tab (.os code)) ∨
    e = Error.lastOsError .mapFileHandle code ∨ e = Error.lastOsError .mapFileView code
  reading : w = false → s'.files = s.files ∧ s'.bytes.file = s.bytes.file ∧ ∀ m, r = .ok (some m) → o.protect ≠ .readWrite

theorem mapping {tab : SysTable} {s : Vmap.Win} (wf : WinWf t s) {o : Options} (hf : Fits t o) (w : Bool) {file : Nat}
    (there : ∃ n, s.files file = some n) :
    ∃ s' r, s.mapIfAs tab t w o file = .ok (s', r) ∧ Mapping tab t s s' o file w r := by
  rcases mapIfAs_out tab wf hf w file with ⟨h1, h2⟩ | ⟨hw, s', e, h1, den, he⟩
  · obtain ⟨s', r, g1, g2, g3, g4, g5, g6⟩ := C106_map_if tab wf hf file
    obtain ⟨c1, c2⟩ := C124_contents tab wf hf g1
    refine ⟨s', r, h1.trans g1, g2, g3.1, g4, fun f hne => (c1 f hne).2, ?_, ?_, ?_, fun hw => h2 hw s' r g1⟩
    · rcases c2 with ⟨n, -, h, -⟩ | ⟨e, -, ⟨h, -⟩ | ⟨-, h⟩⟩
      · exact ⟨_, h⟩
      · rw [h]; exact there
      · exact ⟨_, h⟩
    · intro x hx
      obtain ⟨n, k1, k2, k3, k4, k5⟩ := g5 x hx
      refine ⟨n, k1, k2, ?_, k3, k4, k5⟩
      rcases c2 with ⟨n', k1', -, h⟩ | ⟨e, he, -⟩
      · rw [k1] at k1'; injection k1' with k1'; subst k1'; exact h
      · rw [hx] at he; cases he
    · intro e he
      obtain ⟨k1, k2⟩ := g6 e he
      refine ⟨k1, ?_⟩
      rcases k2 with ⟨code, k2, -⟩ | ⟨code, n, -, -, -, k2⟩
      · exact ⟨code, .inl k2⟩
      · exact ⟨code, .inr k2⟩
  · refine ⟨s', _, h1, den.quiet.wf wf, den.quiet.keeps.handles, fun f _ => by rw [den.files], fun f _ => by rw [den.bytes],
      by rw [den.files]; exact there, (fun x hx => by cases hx), ?_,
      fun _ => ⟨den.files, den.bytes, fun m hm => by cases hm⟩⟩
    intro e' h
    injection h with h
    subst h
    refine ⟨den.quiet.views, 5, ?_⟩
    rcases he with h | h
    · exact .inl h
    · exact .inr (.inl h)

theorem Mapping.fs {fs : WinFs} (wf : WinFsWf t fs) {s' : Vmap.Win} {o : Options} {f : Nat} {w : Bool}
    {r : Result (Option MapMut)} (hf : f < fs.nextFile) (m : Mapping tab t fs.win s' o f w r) : WinFsWf t { fs with win := s' } := by
  refine ⟨m.wf, wf.names, fun g => ?_, wf.once, wf.opened, fun v hv g hg => ?_⟩
  · by_cases h : g = f
    · subst h; exact ⟨fun _ => m.there, fun _ => hf⟩
    · show g < fs.nextFile ↔ ∃ n, s'.files g = some n
      rw [m.lens g h]; exact wf.files g
  · have hsame : s'.views = fs.win.views → g < fs.nextFile := fun h => wf.views v (by rw [← h]; exact hv) g hg
    cases r with
    | error e => exact hsame (m.err e rfl).1
    | ok x =>
      obtain ⟨n, -, -, -, -, h1, h2⟩ := m.ok x rfl
      cases x with
      | none => exact hsame (h1 rfl)
      | some mm =>
        obtain ⟨-, v', hv'⟩ := h2 mm rfl
        have hv : v ∈ s'.views := hv
        rw [hv'.views] at hv
        rcases List.mem_cons.mp hv with rfl | hv
        · rw [hv'.sec.2] at hg; injection hg with hg; subst hg; exact hf
        · exact wf.views v hv g hg

/-- What `map_if` does. -/
theorem mapIf_fs (tab : SysTable) {fs : WinFs} (wf : WinFsWf t fs) {o : Options} (fits : Fits t o) {h f : Nat} {w : Bool}
    (hh : fs.opened h = some (f, w)) :
    ∃ s' r, fs.mapIf tab t o h = .ok ({ fs with win := s' }, r) ∧ Mapping tab t fs.win s' o f w r ∧
      WinFsWf t { fs with win := s' } := by
  obtain ⟨hf, -⟩ := wf.opened h f w hh
  obtain ⟨s', r, h1, m⟩ := mapping (tab := tab) wf.win fits w ((wf.files f).mp hf)
  refine ⟨s', r, ?_, m, m.fs wf hf⟩
  simp only [WinFs.mapIf, hh, h1, bind, Except.bind]
  rfl

end Vmap
