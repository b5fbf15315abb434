import Verif.Proofs.WinMapJob
import Verif.Props.WinJob
/-
C147: `map_if` and `alloc` on Windows while other threads map, unmap and resize between their system
calls.
-/
namespace Vmap
open Spec

/-- C147: with nothing in between, the system calls of `map_if` one after the other are `map_if`. -/
theorem C147_alone_map (tab : SysTable) (t : Target) (s : Win) (o : Options) (file : Nat) :
    WinMapJob.run tab t s o file .stat 6 =
      (s.mapIf tab t o file).map (fun x => (x.1, WinMapJob.done x.2)) := by
  have hdone : ∀ n s r, WinMapJob.run tab t s o file (.done r) n = .ok (s, .done r) := by
    intro n
    induction n with
    | zero => intro s r; rfl
    | succ n ih => intro s r; exact ih s r
  have hmap : ∀ n s flen, WinMapJob.run tab t s o file (.create flen) (n + 3) =
      (s.mapStep t o file flen).map (fun x => (x.1, WinMapJob.done x.2)) := by
    intro n s flen
    rw [WinMapJob.run]
    simp only [WinMapJob.step, Win.mapStep, bind, Except.bind, pure, Except.pure]
    by_cases hc : flen < o.offset
    · rw [if_pos hc, if_pos hc]
      exact hdone _ _ _
    rw [if_neg hc, if_neg hc]
    rcases subU t flen o.offset with e | mx
    · rfl
    dsimp only
    rcases Options.mapLen o.len mx with _ | len
    · exact hdone _ _ _
    dsimp only
    rcases s.sizeAlloc.truncate t o.offset with e | mapoff
    · rfl
    dsimp only
    rcases subU t o.offset mapoff with e | d
    · rfl
    dsimp only
    rcases addU t len d with e | maplen
    · rfl
    dsimp only [Win.mapFile, bind, Except.bind, pure, Except.pure]
    rcases s.handleNew t .mapFileHandle (some file) (Win.mapFileBits o.protect).1 0 with e | ⟨s1, e | h⟩
    · rfl
    · exact hdone _ _ _
    · simp only [WinMapJob.run, WinMapJob.step, bind, Except.bind, pure, Except.pure]
      rcases Win.view t s1 h .mapFileView (Win.mapFileBits o.protect).2 mapoff maplen 0 with e | ⟨s2, e | p⟩
      · rfl
      · exact hdone _ _ _
      · exact hdone _ _ _
  have hres : ∀ n s sz, WinMapJob.run tab t s o file (.resize sz) (n + 4) =
      (match s.resizeFile tab file sz with
        | (s, .error e) => (return (s, .error e) : Exec (Win × Result (Option MapMut)))
        | (s, .ok flen) => s.mapStep t o file flen : Exec (Win × Result (Option MapMut))).map
          (fun x => (x.1, WinMapJob.done x.2)) := by
    intro n s sz
    rw [WinMapJob.run]
    simp only [WinMapJob.step]
    rcases s.resizeFile tab file sz with ⟨s1, e | m⟩
    · exact hdone _ _ _
    · exact hmap n s1 m
  have hafter : ∀ n s flen, WinMapJob.run tab t s o file (WinMapJob.afterTruncate o flen) (n + 4) =
      (match s.resizeStep tab o file flen with
        | (s, .error e) => (return (s, .error e) : Exec (Win × Result (Option MapMut)))
        | (s, .ok flen) => s.mapStep t o file flen : Exec (Win × Result (Option MapMut))).map
          (fun x => (x.1, WinMapJob.done x.2)) := by
    intro n s flen
    unfold WinMapJob.afterTruncate Win.resizeStep
    cases o.resize with
    | endOf => exact hmap (n + 1) s flen
    | exact sz => exact hres n s sz
    | min sz =>
      simp only
      split
      · exact hres n s sz
      · exact hmap (n + 1) s flen
    | max sz =>
      simp only
      split
      · exact hres n s sz
      · exact hmap (n + 1) s flen
  rw [WinMapJob.run]
  simp only [WinMapJob.step, Win.mapIf]
  rcases s.fileLen tab file with ⟨s1, e | m⟩
  · exact hdone _ _ _
  · simp only
    unfold Win.truncateStep
    split
    · simp only [bind, Except.bind, pure, Except.pure]
      rw [WinMapJob.run]
      simp only [WinMapJob.step]
      rcases s1.resizeFile tab file 0 with ⟨s2, e | m⟩
      · exact hdone _ _ _
      · exact hafter 0 s2 m
    · exact hafter 1 s1 _

/-- C147: with nothing in between, the system calls of `alloc` one after the other are `alloc`. -/
theorem C147_alone_alloc (tab : SysTable) (t : Target) (s : Win) (o : Options) (file : Nat) :
    WinMapJob.run tab t s o file .anon 3 =
      (s.alloc t o).map (fun x => (x.1, WinMapJob.done (x.2.map some))) := by
  have hdone : ∀ n s r, WinMapJob.run tab t s o file (.done r) n = .ok (s, .done r) := by
    intro n
    induction n with
    | zero => intro s r; rfl
    | succ n ih => intro s r; exact ih s r
  rw [WinMapJob.run]
  simp only [WinMapJob.step, Win.alloc, bind, Except.bind, pure, Except.pure]
  rcases s.sizePage.offset t o.offset with e | off
  · rfl
  dsimp only
  rcases s.allocLen t o.len off with e | len
  · rfl
  dsimp only
  rcases addU t off len with e | n
  · rfl
  dsimp only [Win.mapAnon, bind, Except.bind, pure, Except.pure]
  rcases s.handleNew t .mapAnonymousHandle none (Win.mapAnonBits o.protect).1 n with e | ⟨s1, e | h⟩
  · rfl
  · exact hdone _ _ _
  · simp only [WinMapJob.run, WinMapJob.step, bind, Except.bind, pure, Except.pure]
    rcases Win.view t s1 h .mapAnonymousView (Win.mapAnonBits o.protect).2 0 n 0 with e | ⟨s2, e | p⟩
    · rfl
    · rfl
    · rfl

/-- C147: whatever others do in between, no call panics, and after at most six system calls of its own it
has returned. -/
theorem C147_ends {tab : SysTable} {t : Target} {s0 : Win} (wf : WinWf t s0) (laid : WinLaid t s0)
    (space : WinRoom s0) {o : Options} {file : Nat} {b : WinMapJob} (fit : WinBegins t s0 o b) {n : Nat}
    {H : List Win} {s : Win} {j : WinMapJob} (run : WinMapRun tab t o file b s0 n H s j) :
    (∃ s' j', j.step tab t s o file = .ok (s', j')) ∧ (6 ≤ n → ∃ r, j = .done r) := by
  have now := winMapRun_now wf laid space fit run
  refine ⟨?_, fun hn => ?_⟩
  · obtain ⟨s', j', h, -⟩ := winMap_step tab now.fine fit now.ok
    exact ⟨s', j', h⟩
  · have := now.rank
    have hb : b.rank ≤ 6 := by cases b <;> simp [WinMapJob.rank]
    have hz : j.rank = 0 := by omega
    cases j <;> first | exact ⟨_, rfl⟩ | (simp [WinMapJob.rank] at hz)

/-- C147: a system call of `map_if` or `alloc` touches nothing that is not its own, apart from the length of
the file: that it sets only to what the options name, and only if no viewed section of the file is
longer.  `alloc` changes no file. -/
theorem C147_others {tab : SysTable} {t : Target} {s0 : Win} (wf : WinWf t s0) (laid : WinLaid t s0)
    (space : WinRoom s0) {o : Options} {file : Nat} {b : WinMapJob} (fit : WinBegins t s0 o b) {n : Nat}
    {H : List Win} {s s' : Win} {j j' : WinMapJob} (run : WinMapRun tab t o file b s0 n H s j)
    (step : j.step tab t s o file = .ok (s', j')) :
    WinActs (j.has s0.gran) (j'.has s0.gran) s s' ∧ WinFileCut s s' file (winLengths o b) ∧ s'.locked = s.locked := by
  have now := winMapRun_now wf laid space fit run
  obtain ⟨s1, j1, h, own⟩ := winMap_step tab now.fine fit now.ok
  rw [step] at h
  cases h
  exact ⟨own.acts, own.cut, own.locked⟩

/-- C147: what `map_if` returns is right for a length the file had at some moment during the call: `Ok(None)`
if at that length (after truncation and resizing) the range lies outside, a map of the wanted length
otherwise.  The map shows the right bytes of a new section of the file, with the right access; the
section is as long as the file was at some moment during the call, and has all bytes of the map. -/
theorem C147_map {tab : SysTable} {t : Target} {s0 : Win} (wf : WinWf t s0) (laid : WinLaid t s0)
    (space : WinRoom s0) {o : Options} {file : Nat} (fit : Fits t o) {n : Nat} {H : List Win} {s s' : Win}
    {j : WinMapJob} {mo : Option MapMut} (run : WinMapRun tab t o file .stat s0 n H s j)
    (before : ∀ r, j ≠ .done r) (step : j.step tab t s o file = .ok (s', .done (.ok mo))) :
    (mo = none → ∃ s1 ∈ s :: H, ∃ l, s1.files file = some l ∧
      ¬ InRange (newLen o.truncate o.resize (l % t.lim)) o.offset o.len) ∧
    ∀ m, mo = some m →
      (∃ s1 ∈ H, ∃ l, s1.files file = some l ∧ InRange (newLen o.truncate o.resize (l % t.lim)) o.offset o.len ∧
        m.len = wanted (newLen o.truncate o.resize (l % t.lim)) o.offset o.len) ∧
      ∃ v, WinFresh t s0 s' (some file) o.offset o.protect m v ∧ ∃ s2 ∈ H, s2.files file = some v.sec.size := by
  have now := winMapRun_now wf laid space (b := .stat) fit run
  obtain ⟨s1, j1, h1, own⟩ := winMap_step tab now.fine (b := .stat) fit now.ok
  rw [step] at h1
  cases h1
  refine ⟨?_, ?_⟩
  · rintro rfl
    obtain ⟨-, l, ⟨s1, h1, h2⟩, h3⟩ := own.ok
    exact ⟨s1, h1, l, h2, h3⟩
  · rintro m rfl
    rcases winMap_ends step before with ⟨h, d, k, x, rfl, -⟩ | ⟨-, h⟩
    · obtain ⟨s2, j2, h1, -, h2⟩ := winMap_close tab now.fine now.ok
      rw [step] at h1
      cases h1
      obtain ⟨v, f, -, ⟨⟨s2, g1, g2⟩, l, ⟨s3, g3, g4⟩, g5, g6⟩⟩ := h2 m rfl
      exact ⟨⟨s3, g3, l, g4, g5, g6⟩, v, f, s2, g1, g2⟩
    · exact absurd rfl (h m)

/-- C147: what `alloc` returns, whatever others did in between, is a map of the promised length and place in
its page, of new memory, which is zero and which nobody else can get at. -/
theorem C147_alloc {tab : SysTable} {t : Target} {s0 : Win} (wf : WinWf t s0) (laid : WinLaid t s0)
    (space : WinRoom s0) {o : Options} {file : Nat} (fit : WinAllocFits t s0.gran (o.offset % s0.page) o.len)
    {n : Nat} {H : List Win} {s s' : Win} {j : WinMapJob} {mo : Option MapMut}
    (run : WinMapRun tab t o file .anon s0 n H s j) (before : ∀ r, j ≠ .done r)
    (step : j.step tab t s o file = .ok (s', .done (.ok mo))) :
    ∃ m, mo = some m ∧ AllocLen s0.gran (o.offset % s0.page) o.len m.len ∧
      m.ptr % s0.page = o.offset % s0.page ∧ (∃ v, WinFresh t s0 s' none (o.offset % s0.page) o.protect m v) ∧
      ∀ i, i < m.len → s'.get m i = .ok 0 := by
  have now := winMapRun_now wf laid space (b := .anon) fit run
  obtain ⟨s1, j1, h1, own⟩ := winMap_step tab now.fine (b := .anon) fit now.ok
  rw [step] at h1
  cases h1
  cases mo with
  | none => exact nomatch own.ok.1
  | some m =>
    rcases winMap_ends step before with ⟨h, d, k, x, rfl, -⟩ | ⟨-, h⟩
    · have hok := now.ok
      obtain ⟨s2, j2, h1, -, h2⟩ := winMap_close tab now.fine now.ok
      rw [step] at h1
      cases h1
      obtain ⟨v, f, hptr, ⟨g1, g2⟩⟩ := h2 m rfl
      have hin := f.inside
      have hpage : s0.page ∣ v.base := Nat.dvd_trans wf.page_dvd f.aligned
      refine ⟨m, rfl, g1, ?_, ⟨v, f⟩, fun i hi => ?_⟩
      · cases x with
        | error e => cases step
        | ok ptr =>
          obtain ⟨sec, access, off, len, v', p, g, -, xs⟩ := hok
          have hst := p.start
          have hoff : off + d = o.offset % s0.page := hst
          have hlt := Nat.mod_lt o.offset wf.page_pos
          have hpg := Nat.le_of_dvd wf.gran_pos wf.page_dvd
          have hk : off = 0 := Nat.eq_zero_of_dvd_of_lt p.dvd (by omega)
          obtain ⟨c, hc⟩ := hpage
          rw [hptr, hc, Nat.mul_add_mod, show d = o.offset % s0.page by omega, Nat.mod_mod]
      · have look := own.fine.laid.look (v := v) f.view (a := m.ptr + i) (by omega)
        have hread := f.access.read
        have hb : (v.access.read || v.access.copy) = true := by simpa [Bool.or_eq_true] using hread
        have hnf : v.sec.file = none := f.sec.2
        have hlost : ∀ q, s'.lost v.sec q = false := fun q => by unfold Win.lost; rw [hnf]
        simp only [Win.get, if_pos hi, Win.load, look, f.own, hb, hlost, Bool.not_false, Bool.and_true, if_pos]
        unfold WinBytes.shown
        rw [hnf]
        simp only [f.zero]
    · exact absurd rfl (h m)

/-- C147: a call that returns an error leaves nothing behind, its section having neither a handle nor a view any
more, and the error says which step failed. -/
theorem C147_failed {tab : SysTable} {t : Target} {s0 : Win} (wf : WinWf t s0) (laid : WinLaid t s0)
    (space : WinRoom s0) {o : Options} {file : Nat} {b : WinMapJob} (fit : WinBegins t s0 o b) {n : Nat}
    {H : List Win} {s s' : Win} {j : WinMapJob} {e : Error} (run : WinMapRun tab t o file b s0 n H s j)
    (step : j.step tab t s o file = .ok (s', .done (.error e))) :
    (b = .stat → e.op = .mapFile ∨ e.op = .mapFileHandle ∨ e.op = .mapFileView) ∧
    (b = .anon → e.op = .mapAnonymousHandle ∨ e.op = .mapAnonymousView) ∧
    ∀ h, j.handle = some h →
      s'.handles h = none ∧ (∀ q x, s'.handles q = some x → x.id ≠ h) ∧ ∀ v, v ∈ s'.views → v.sec.id ≠ h := by
  have now := winMapRun_now wf laid space fit run
  obtain ⟨s1, j1, h1, own⟩ := winMap_step tab now.fine fit now.ok
  rw [step] at h1
  cases h1
  have herr : WinMapErr b e := own.ok
  refine ⟨fun hb => ?_, fun hb => ?_, fun h hj => ?_⟩
  · subst hb; exact herr
  · subst hb; exact herr
  · have nd : ∀ x, j ≠ .done x := by rintro x rfl; cases hj
    rcases winMap_ends step nd with ⟨q, d, k, x, rfl, hx⟩ | ⟨hn, -⟩
    · cases hj
      cases x with
      | ok ptr => cases hx
      | error e' =>
        obtain ⟨⟨sec, o⟩, -⟩ := now.ok
        cases step
        have closed : (s.dropHandle h).handles h = none := by simp [Win.dropHandle, Win.closeHandle]
        refine ⟨closed, fun q x hx hid => ?_, fun v hv hid => ?_⟩
        · have : q = h := by
            refine o.alone q x ?_ hid
            simp only [Win.dropHandle, Win.closeHandle] at hx
            split at hx
            · cases hx
            · exact hx
          subst this
          rw [closed] at hx
          cases hx
        · exact absurd (o.only v hv hid) (by simp)
    · rw [hn] at hj
      cases hj

/-- What is known about a task. -/
theorem winTask_now {tab : SysTable} {t : Target} {s0 : Win} (wf : WinWf t s0) (laid : WinLaid t s0)
    (space : WinRoom s0) {n : Nat} {s : Win} {a : WinTask} (run : a.Run tab t s0 n s) :
    WinFine t s0 s ∧ WinHasAll (a.has s0.gran) s ∧
      ∀ s' a', a.step tab t s = .ok (s', a') → WinFine t s0 s' ∧ WinHasAll (a'.has s0.gran) s' ∧
        WinActs (a.has s0.gran) (a'.has s0.gran) s s' ∧ a'.Run tab t s0 (n + 1) s' := by
  cases a with
  | ring len j =>
    obtain ⟨fit, run⟩ := run
    have ok := winRun_ok wf laid space fit run
    refine ⟨ok.fine, ring_holds ok.job, fun s' a' h => ?_⟩
    obtain ⟨s1, j1, h1, h2, h3, h4⟩ := ringStep ok.fine fit ok.job
    simp only [WinTask.step, h1, bind, Except.bind, pure, Except.pure] at h
    cases h
    exact ⟨h2, ring_holds h3, ring_acts h4, fit, .own run h1⟩
  | map o file b j =>
    obtain ⟨fit, H, run⟩ := run
    have now := winMapRun_now wf laid space fit run
    refine ⟨now.fine, now.ok.holds, fun s' a' h => ?_⟩
    obtain ⟨s1, j1, h1, own⟩ := winMap_step tab now.fine fit now.ok
    simp only [WinTask.step, h1, bind, Except.bind, pure, Except.pure] at h
    cases h
    exact ⟨own.fine, own.ok.holds, own.acts, fit, _, .own run h1⟩

/-- C147: maps, allocations and ring creations do not disturb each other: a system call of the one is something
that may happen between two calls of the other, and they still have nothing in common afterwards. -/
theorem C147_apart {tab : SysTable} {t : Target} {s0 s0' : Win} (wf : WinWf t s0) (laid : WinLaid t s0)
    (space : WinRoom s0) (wf' : WinWf t s0') (laid' : WinLaid t s0') (space' : WinRoom s0') (gran : s0'.gran = s0.gran)
    {n n' : Nat} {s s' : Win} {a a' b : WinTask} (run : a.Run tab t s0 n s) (other : b.Run tab t s0' n' s)
    (apart : WinDistinct (a.has s0.gran) (b.has s0.gran)) (step : a.step tab t s = .ok (s', a')) :
    WinAround t (b.has s0.gran) s s' ∧ WinDistinct (a'.has s0.gran) (b.has s0.gran) := by
  obtain ⟨f1, f2, f3⟩ := winTask_now wf laid space run
  obtain ⟨g1, g2, g3, -⟩ := f3 s' a' step
  obtain ⟨-, h2, -⟩ := winTask_now wf' laid' space' other
  rw [gran] at h2
  exact winActs_around f1 g1 f2 g2 h2 g3 apart

/-- Somebody else's turn. -/
theorem winTask_other {tab : SysTable} {t : Target} {s0 : Win} {n : Nat} {s s' : Win} {a : WinTask}
    (run : a.Run tab t s0 n s) (what : WinAround t (a.has s0.gran) s s') : a.Run tab t s0 n s' := by
  cases a with
  | ring len j => exact ⟨run.1, .other run.2 (ring_around what)⟩
  | map o file b j =>
    obtain ⟨fit, H, run⟩ := run
    exact ⟨fit, _, .other run what⟩

/-- C147: in a program with any number of threads that make maps and rings at the same time, every one of them runs
as if the others were just anybody: all that is said of a single call (C125, C147) holds of it.  No two
calls have anything in common. -/
theorem C147_team {tab : SysTable} {t : Target} {s0 : Win} (wf : WinWf t s0) (laid : WinLaid t s0)
    (space : WinRoom s0) {s : Win} {ts : Nat → Option WinTask} (team : WinTeam tab t s0 s ts) :
    (∀ i a, ts i = some a → ∃ s1 n, WinWf t s1 ∧ WinLaid t s1 ∧ WinRoom s1 ∧ s1.gran = s0.gran ∧ s1.page = s0.page ∧
      a.Run tab t s1 n s) ∧
    ∀ i k a b, i ≠ k → ts i = some a → ts k = some b → WinDistinct (a.has s0.gran) (b.has s0.gran) := by
  suffices h : WinFine t s0 s ∧ (∀ i a, ts i = some a → ∃ s1 n, WinWf t s1 ∧ WinLaid t s1 ∧ WinRoom s1 ∧
      s1.gran = s0.gran ∧ s1.page = s0.page ∧ a.Run tab t s1 n s) ∧
      ∀ i k a b, i ≠ k → ts i = some a → ts k = some b → WinDistinct (a.has s0.gran) (b.has s0.gran) from h.2
  induction team with
  | start => exact ⟨⟨wf, laid, space, rfl, rfl, Nat.le_refl _⟩, (fun _ _ h => nomatch h), fun _ _ _ _ _ h => nomatch h⟩
  | @begin s ts i a before idle fresh ih =>
    obtain ⟨fine, runs, apart⟩ := ih
    have hrun : a.Run tab t s 0 s := by
      cases a with
      | ring len j => obtain ⟨rfl, hl⟩ := fresh; exact ⟨hl, .start⟩
      | map o file b j => obtain ⟨rfl, hb⟩ := fresh; exact ⟨hb, _, .start⟩
    have hno : a.has s0.gran = ⟨none, none, []⟩ := by
      cases a with
      | ring len j => obtain ⟨rfl, hl⟩ := fresh; rfl
      | map o file b j =>
        obtain ⟨rfl, hb⟩ := fresh
        cases j with
        | stat => rfl
        | anon => rfl
        | _ => exact hb.elim
    refine ⟨fine, fun k x hk => ?_, fun k l x y hkl hk hl => ?_⟩
    · simp only at hk
      split at hk
      · cases hk
        exact ⟨s, 0, fine.wf, fine.laid, fine.space, fine.gran, fine.page, hrun⟩
      · exact runs k x hk
    · simp only at hk hl
      split at hk
      · cases hk
        rw [hno]
        exact ⟨(fun _ h => nomatch h), (fun _ h => nomatch h), fun _ h => nomatch h⟩
      · split at hl
        · cases hl
          rw [hno]
          exact ⟨(fun _ _ h => nomatch h), (fun _ _ h => nomatch h), fun _ _ h => nomatch h⟩
        · exact apart k l x y hkl hk hl
  | @step s ts i a s' a' before busy step ih =>
    obtain ⟨fine, runs, apart⟩ := ih
    obtain ⟨s1, n, w1, l1, r1, g1, p1, run⟩ := runs i a busy
    have f := winTask_now w1 l1 r1 run
    obtain ⟨fa, ha, hs⟩ := f
    obtain ⟨fa', ha', acts, run'⟩ := hs s' a' step
    rw [g1] at ha ha' acts
    have others : ∀ k b, k ≠ i → ts k = some b →
        WinAround t (b.has s0.gran) s s' ∧ WinDistinct (a'.has s0.gran) (b.has s0.gran) := by
      intro k b hk hb
      obtain ⟨s2, m, w2, l2, r2, g2, p2, runb⟩ := runs k b hb
      obtain ⟨-, hb2, -⟩ := winTask_now w2 l2 r2 runb
      rw [g2] at hb2
      exact winActs_around fa fa' ha ha' hb2 acts (apart i k a b (Ne.symm hk) busy hb)
    refine ⟨⟨fa'.wf, fa'.laid, fa'.space, by rw [acts.page, fine.page], by rw [acts.gran, fine.gran],
      Nat.le_trans fine.next acts.next⟩, fun k x hk => ?_, fun k l x y hkl hk hl => ?_⟩
    · simp only at hk
      split at hk
      · cases hk
        exact ⟨s1, n + 1, w1, l1, r1, g1, p1, run'⟩
      · rename_i hne
        obtain ⟨s2, m, w2, l2, r2, g2, p2, runb⟩ := runs k x hk
        exact ⟨s2, m, w2, l2, r2, g2, p2, winTask_other runb (by rw [g2]; exact (others k x hne hk).1)⟩
    · simp only at hk hl
      split at hk
      · cases hk
        rw [if_neg (by omega)] at hl
        exact (others l y (by omega) hl).2
      · split at hl
        · cases hl
          have d := (others k x (by assumption) hk).2
          exact ⟨fun h h1 h2 => d.handle h h2 h1, fun r h1 h2 => d.room r h2 h1, fun b h1 h2 => d.bases b h2 h1⟩
        · exact apart k l x y hkl hk hl
  | @stop s ts i a before busy over ih =>
    obtain ⟨fine, runs, apart⟩ := ih
    refine ⟨fine, fun k x hk => ?_, fun k l x y hkl hk hl => ?_⟩
    · simp only at hk
      split at hk
      · cases hk
      · exact runs k x hk
    · simp only at hk hl
      split at hk
      · cases hk
      · split at hl
        · cases hl
        · exact apart k l x y hkl hk hl
  | @other s ts s' before sane what ih =>
    obtain ⟨fine, runs, apart⟩ := ih
    refine ⟨fine.around sane, fun k x hk => ?_, apart⟩
    obtain ⟨s2, m, w2, l2, r2, g2, p2, runb⟩ := runs k x hk
    exact ⟨s2, m, w2, l2, r2, g2, p2, winTask_other runb (by rw [g2]; exact what k x hk)⟩

/-! ### Examples -/

/-- `n` steps of a call in the state `s`. -/
def winMapAt (s : Win) (o : Options) (j : WinMapJob) (n : Nat) : Win × WinMapJob :=
  match WinMapJob.run winTab ⟨.w64, true⟩ s o 7 j n with
  | .ok x => x
  | .error _ => (s, .done (.ok none))

/-- Somebody else sets the length of the file. -/
def winSized (s : Win) (n : Nat) : Win :=
  { s with files := fun f => if f = 7 then some n else s.files f }

theorem winSized_around (n : Nat) : WinAround ⟨.w64, true⟩ ⟨none, none, []⟩ (winMapAt (winDemo []) .new .stat 1).1
    (winSized (winMapAt (winDemo []) .new .stat 1).1 n) :=
  ⟨⟨⟨12, 16, rfl, rfl, by decide, by decide⟩, fun _ h => (nomatch h), fun _ h => (nomatch h), fun _ _ h => (nomatch h)⟩,
    ⟨⟨12, 16, rfl, rfl, by decide, by decide⟩, fun _ h => (nomatch h), List.Pairwise.nil⟩,
    ⟨List.Pairwise.nil, fun _ h => (nomatch h)⟩, rfl, rfl, Nat.le_refl _, fun _ h => (nomatch h), fun _ h => (nomatch h),
    fun _ h => (nomatch h), fun _ _ h => (nomatch h)⟩

theorem winDemo_fits : Fits ⟨.w64, true⟩ .new :=
  ⟨trivial, trivial, by decide⟩

/-- The file is extended while it is mapped. -/
def winLonger (n : Nat) : Win × WinMapJob :=
  winMapAt (winSized (winMapAt (winDemo []) .new .stat 1).1 200000) .new (.create 100000) n

theorem winLonger_run : ∃ H, WinMapRun winTab ⟨.w64, true⟩ .new 7 .stat (winDemo []) 3 H (winLonger 2).1
    (.close 1 0 100000 (.ok 69206016)) :=
  ⟨_, .own (s := (winLonger 1).1) (j := .view 1 .mapFileView { read := true } 0 100000 0 100000)
    (.own (.other (.own .start rfl) (winSized_around 200000)) rfl) rfl⟩

/-- The map has the length the file had at first; the section has the length it has now. -/
example : ∃ v, WinFresh ⟨.w64, true⟩ (winDemo []) (winLonger 3).1 (some 7) 0 .readOnly ⟨69206016, 100000⟩ v := by
  obtain ⟨H, run⟩ := winLonger_run
  obtain ⟨v, h, -⟩ := ((C147_map (winDemo_wf []) (winDemo_laid []) (winDemo_room []) winDemo_fits run
    (fun _ h => (nomatch h)) (s' := (winLonger 3).1) (mo := some ⟨69206016, 100000⟩) rfl).2 _ rfl).2
  exact ⟨v, h⟩

example : (winLonger 3).1.views.map (fun v => (v.len, v.sec.size)) = [(100000, 200000)] := rfl

/-- Every state so far was one in which the call can go on. -/
example : ∃ s' j', WinMapJob.step winTab ⟨.w64, true⟩ (winLonger 2).1 .new 7 (.close 1 0 100000 (.ok 69206016)) =
    .ok (s', j') := by
  obtain ⟨H, run⟩ := winLonger_run
  exact (C147_ends (winDemo_wf []) (winDemo_laid []) (winDemo_room []) (b := .stat) winDemo_fits run).1

/-- The last call closes the handle and no other. -/
example : ∀ h, h ≠ 1 → (winLonger 3).1.handles h = (winLonger 2).1.handles h := by
  obtain ⟨H, run⟩ := winLonger_run
  intro h hh
  refine (C147_others (winDemo_wf []) (winDemo_laid []) (winDemo_room []) (b := .stat) winDemo_fits run
    (s' := (winLonger 3).1) rfl).1.handles h ?_ (fun h => nomatch h)
  intro h'
  cases h'
  exact hh rfl

/-- The file is cut while it is mapped: the view is refused, and nothing is left. -/
def winShorter (n : Nat) : Win × WinMapJob :=
  winMapAt (winSized (winMapAt (winDemo []) .new .stat 1).1 50000) .new (.create 100000) n

example : (winShorter 3).2 = .done (.error (Error.lastOsError .mapFileView 5)) ∧ (winShorter 3).1.views = [] := ⟨rfl, rfl⟩

example : (winShorter 3).1.handles 1 = none := by
  have run : ∃ H, WinMapRun winTab ⟨.w64, true⟩ .new 7 .stat (winDemo []) 3 H (winShorter 2).1
      (.close 1 0 100000 (.error (Error.lastOsError .mapFileView 5))) :=
    ⟨_, .own (s := (winShorter 1).1) (j := .view 1 .mapFileView { read := true } 0 100000 0 100000)
      (.own (.other (.own .start rfl) (winSized_around 50000)) rfl) rfl⟩
  obtain ⟨H, run⟩ := run
  exact ((C147_failed (winDemo_wf []) (winDemo_laid []) (winDemo_room []) (b := .stat) winDemo_fits run
    (s' := (winShorter 3).1) rfl).2.2 1 rfl).1

/-- A ring and an allocation, call by call in turns. -/
def winMixed : Nat → Win × WinRingJob × WinMapJob
  | 0 => (winDemo [], .create 65536, .anon)
  | n + 1 =>
    let x := winMixed n
    match x.2.1.step ⟨.w64, true⟩ x.1 with
    | .error _ => x
    | .ok y =>
      match x.2.2.step winTab ⟨.w64, true⟩ y.1 (.setLen .newMut (.exact 5000)) 7 with
      | .error _ => x
      | .ok z => (z.1, y.2, z.2)

/-- The options of the allocation. -/
def winMixedOpts : Options := .setLen .newMut (.exact 5000)

theorem winMixed_team (n : Nat) : ∃ ts, WinTeam winTab ⟨.w64, true⟩ (winDemo []) (winMixed n).1 ts ∧
    ts 0 = some (.ring 65536 (winMixed n).2.1) ∧ ts 1 = some (.map winMixedOpts 7 .anon (winMixed n).2.2) := by
  induction n with
  | zero =>
    exact ⟨_, .begin (i := 1) (a := .map winMixedOpts 7 .anon .anon)
      (.begin (i := 0) (a := .ring 65536 (.create 65536)) .start rfl ⟨rfl, by decide⟩) rfl
      ⟨rfl, (by decide : 0 + 5000 < 2 ^ 64)⟩, rfl, rfl⟩
  | succ n ih =>
    obtain ⟨ts, team, h0, h1⟩ := ih
    rw [winMixed]
    split
    · exact ⟨ts, team, h0, h1⟩
    next y hy =>
      split
      · exact ⟨ts, team, h0, h1⟩
      next z hz =>
        refine ⟨_, .step (i := 1) (a' := .map winMixedOpts 7 .anon z.2)
          (.step (i := 0) (a' := .ring 65536 y.2) team h0 (by simp only [WinTask.step, hy]; rfl)) h1
          (by simp only [WinTask.step]; rw [winMixedOpts, hz]; rfl), rfl, rfl⟩

/-- Both succeed. -/
example : (winMixed 6).2.1 = .done (.ok 69206016) ∧ (winMixed 6).2.2 = .done (.ok (some ⟨70254592, 5000⟩)) := ⟨rfl, rfl⟩

/-- Halfway: the ring has its handle and its place, the allocation its handle; they are distinct. -/
example : WinDistinct ((winMixed 1).2.1.has 65536) ((winMixed 1).2.2.has 65536) := by
  obtain ⟨ts, team, h0, h1⟩ := winMixed_team 1
  exact (C147_team (winDemo_wf []) (winDemo_laid []) (winDemo_room []) team).2 0 1 _ _ (by decide) h0 h1

example : ((winMixed 1).2.1.has 65536).handle = some 1 ∧ ((winMixed 1).2.2.has 65536).handle = some 2 := ⟨rfl, rfl⟩

set_option maxRecDepth 20000 in
/-- An allocation with nobody in between: its last byte is there, and zero. -/
example : (winMapAt (winDemo []) winMixedOpts .anon 3).1.get ⟨68157440, 5000⟩ 4999 = .ok 0 := by
  have hstep : WinMapJob.step winTab ⟨.w64, true⟩ (winMapAt (winDemo []) winMixedOpts .anon 2).1 winMixedOpts 7
      (.close 1 0 5000 (.ok 68157440)) = .ok ((winMapAt (winDemo []) winMixedOpts .anon 3).1, .done (.ok (some ⟨68157440, 5000⟩))) := rfl
  obtain ⟨m, h1, -, -, -, h2⟩ := C147_alloc (winDemo_wf []) (winDemo_laid []) (winDemo_room [])
    (o := winMixedOpts) (by decide : 0 + 5000 < 2 ^ 64)
    (.own (s := (winMapAt (winDemo []) winMixedOpts .anon 1).1)
      (j := .view 1 .mapAnonymousView { read := true, write := true } 0 5000 0 5000) (.own .start rfl) rfl)
    (fun _ h => (nomatch h)) hstep
  cases h1
  exact h2 4999 (Nat.lt_succ_self 4999)

/-- The next call of the ring is nothing to the allocation. -/
example : ∃ s', WinAround ⟨.w64, true⟩ ((winMixed 1).2.2.has 65536) (winMixed 1).1 s' := by
  obtain ⟨ts, team, h0, h1⟩ := winMixed_team 1
  obtain ⟨runs, apart⟩ := C147_team (winDemo_wf []) (winDemo_laid []) (winDemo_room []) team
  obtain ⟨s1, n1, w1, l1, r1, g1, p1, run1⟩ := runs 0 _ h0
  obtain ⟨s2, n2, w2, l2, r2, g2, p2, run2⟩ := runs 1 _ h1
  have hd := apart 0 1 _ _ (by decide) h0 h1
  rw [← g1] at hd
  obtain ⟨y, hy⟩ : ∃ y, WinTask.step winTab ⟨.w64, true⟩ (winMixed 1).1 (.ring 65536 (winMixed 1).2.1) = .ok y := ⟨_, rfl⟩
  have h := (C147_apart w1 l1 r1 w2 l2 r2 (g2.trans g1.symm) run1 run2 hd (s' := y.1) (a' := y.2) hy).1
  rw [g1] at h
  exact ⟨_, h⟩

end Vmap
