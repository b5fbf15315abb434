import Verif.Proofs.WinJob
import Verif.Proofs.WinBytes
import Verif.Props.Windows
import Verif.Props.Platform
/-
C125: ring creation on Windows while other threads map, unmap, reserve and release memory between its
system calls.
-/
namespace Vmap
open Spec

/-- C125: with nothing in between, the system calls one after the other are `map_ring`. -/
theorem C125_alone (t : Target) (s : Win) (len : Nat) :
    WinRingJob.run t s (.create len) 32 =
      (s.mapRing t len).map (fun x => (x.1, WinRingJob.done x.2)) := by
  have hdone : ∀ n s r, WinRingJob.run t s (.done r) n = .ok (s, .done r) := by
    intro n
    induction n with
    | zero => intro s r; rfl
    | succ n ih => intro s r; exact ih s r
  have hloop : ∀ left n s h full, 5 * left + 6 ≤ n → WinRingJob.run t s (.reserve len full h left) n =
      (Win.mapRingLoop t left s h len full).map (fun x => (x.1.dropHandle h, WinRingJob.done x.2)) := by
    intro left
    induction left with
    | zero =>
      intro n s h full hn
      obtain ⟨n, rfl⟩ : ∃ m, n = m + 6 := ⟨n - 6, by omega⟩
      unfold Win.mapRingLoop
      simp only [WinRingJob.run, WinRingJob.step, Win.reserve, bind, Except.bind, pure, Except.pure]
      rcases s.virtualAlloc t full with ⟨s1, e | pg⟩
      · exact hdone _ _ _
      dsimp only [Win.mapRingHandle, bind, Except.bind, pure, Except.pure]
      rcases Win.view t (s1.virtualFree pg) h .ringPrimary { read := true, write := true } 0 len pg with
        e | ⟨s2, e | a⟩
      · rfl
      · exact hdone _ _ _
      dsimp only
      rcases Win.view t s2 h .ringSecondary { read := true, write := true } 0 len (ptrAdd t pg len) with
        e | ⟨s3, e | a⟩
      · rfl
      · exact hdone _ _ _
      · exact hdone _ _ _
    | succ left ih =>
      intro n s h full hn
      obtain ⟨n, rfl⟩ : ∃ m, n = m + 6 := ⟨n - 6, by omega⟩
      unfold Win.mapRingLoop
      simp only [WinRingJob.run, WinRingJob.step, Win.reserve, bind, Except.bind, pure, Except.pure]
      rcases s.virtualAlloc t full with ⟨s1, e | pg⟩
      · exact hdone _ _ _
      dsimp only [Win.mapRingHandle, bind, Except.bind, pure, Except.pure]
      rcases Win.view t (s1.virtualFree pg) h .ringPrimary { read := true, write := true } 0 len pg with
        e | ⟨s2, e | a⟩
      · rfl
      · exact ih (n + 3) s2 h full (by omega)
      dsimp only
      rcases Win.view t s2 h .ringSecondary { read := true, write := true } 0 len (ptrAdd t pg len) with
        e | ⟨s3, e | a⟩
      · rfl
      · exact ih (n + 1) _ h full (by omega)
      · exact hdone _ _ _
  rw [show (32 : Nat) = 31 + 1 from rfl, WinRingJob.run, WinRingJob.step, Win.mapRing]
  simp only [bind, Except.bind, pure, Except.pure]
  rcases mulU t 2 len with e | full
  · rfl
  dsimp only
  rcases Win.handleNew t s .ringAllocate none .readwrite full with e | ⟨s1, e | h⟩
  · rfl
  · exact hdone _ _ _
  · dsimp only
    rw [hloop 5 31 s1 h full (by omega)]
    rcases Win.mapRingLoop t 5 s1 h len full with e | ⟨s2, r⟩ <;> rfl

/-- C125: whatever others do in between, every call of a creation goes through without a panic, and
after at most 32 of its own calls it has returned. -/
theorem C125_ends {t : Target} {s0 : Win} (wf : WinWf t s0) (laid : WinLaid t s0) (space : WinRoom s0)
    {len : Nat} (fit : 2 * len < t.lim) {n : Nat} {s : Win} {j : WinRingJob} (run : WinRun t len s0 n s j) :
    (∃ s' j', j.step t s = .ok (s', j')) ∧ (32 ≤ n → ∃ r, j = .done r) := by
  have ok := winRun_ok wf laid space fit run
  refine ⟨?_, fun hn => ?_⟩
  · obtain ⟨s', j', h, -⟩ := ringStep ok.fine fit ok.job
    exact ⟨s', j', h⟩
  · have := ok.rank
    cases j <;> simp only [WinRingJob.rank] at this <;> first | exact ⟨_, rfl⟩ | omega

/-- C125: no call of a creation touches what is not its own, it changes no byte, what it gets was not
there before, and what it gives up is gone. -/
theorem C125_others {t : Target} {s0 : Win} (wf : WinWf t s0) (laid : WinLaid t s0) (space : WinRoom s0)
    {len : Nat} (fit : 2 * len < t.lim) {n : Nat} {s s' : Win} {j j' : WinRingJob}
    (run : WinRun t len s0 n s j) (step : j.step t s = .ok (s', j')) : WinMinds len j j' s s' := by
  have ok := winRun_ok wf laid space fit run
  obtain ⟨s1, j1, h, -, -, m⟩ := ringStep ok.fine fit ok.job
  rw [step] at h
  cases h
  exact m

/-- C125: two creations do not disturb each other: a call of the one is something that may happen
between two calls of the other, and they still have nothing in common afterwards. -/
theorem C125_apart {t : Target} {s0 s0' : Win} (wf : WinWf t s0) (laid : WinLaid t s0) (space : WinRoom s0)
    (wf' : WinWf t s0') (laid' : WinLaid t s0') (space' : WinRoom s0') {len len' : Nat}
    (fit : 2 * len < t.lim) (fit' : 2 * len' < t.lim) {n n' : Nat} {s s' : Win} {i j j' : WinRingJob}
    (run : WinRun t len s0 n s j) (other : WinRun t len' s0' n' s i) (apart : WinApart len len' j i)
    (step : j.step t s = .ok (s', j')) : WinOutside t len' i s s' ∧ WinApart len len' j' i := by
  have ok := winRun_ok wf laid space fit run
  have ok' := winRun_ok wf' laid' space' fit' other
  obtain ⟨s1, j1, h, w, o, m⟩ := ringStep ok.fine fit ok.job
  rw [step] at h
  cases h
  exact ringStep_outside ok.fine ok.job ok'.job w o m apart

/-- C125: when a creation returns a ring, that is a new ring, whatever others did in between: two views,
next to each other, of the same zeroed memory, which nobody else can get at.  Reading `2 * len` bytes
goes round it twice. -/
theorem C125_result {t : Target} {s0 : Win} (wf : WinWf t s0) (laid : WinLaid t s0) (space : WinRoom s0)
    {len : Nat} (fit : 2 * len < t.lim) {n : Nat} {s s' : Win} {j : WinRingJob} {a : Nat}
    (run : WinRun t len s0 n s j) (before : ∀ r, j ≠ .done r) (step : j.step t s = .ok (s', .done (.ok a))) :
    WinNewRing t s0 s' len a ∧ ∃ id, s0.next ≤ id ∧
      ∀ i, i < 2 * len → winShows s' (a + i) = some (id, i % len) ∧ s'.load (a + i) = .ok 0 := by
  have ok := winRun_ok wf laid space fit run
  have hj : ∃ h, j = .finish h (.ok a) := by
    rcases ringStep_ends step with h | h | ⟨-, e, h⟩
    · exact absurd h (before _)
    · exact h
    · cases h
  obtain ⟨h, rfl⟩ := hj
  obtain ⟨s1, j1, h1, w, -, -, ring⟩ := ringStep_finish ok.fine ok.job
  rw [step] at h1
  cases h1
  have ring := ring a rfl
  refine ⟨ring, ?_⟩
  obtain ⟨pos, -, -, -, sec, mem, late, v1, v2, -, -, zero, own⟩ := ring
  refine ⟨sec.id, late, fun i hi => ?_⟩
  have key : ∃ v, s'.look (a + i) = some v ∧ v.sec = sec ∧ v.off + (a + i - v.base) = i % len ∧
      v.access = { read := true, write := true } := by
    by_cases h1 : i < len
    · refine ⟨_, w.laid.look v1 (a := a + i) ?_, rfl, ?_, rfl⟩
      · simp only [ringHalf]; omega
      · simp only [ringHalf, Nat.mod_eq_of_lt h1]; omega
    · refine ⟨_, w.laid.look v2 (a := a + i) ?_, rfl, ?_, rfl⟩
      · simp only [ringHalf]; omega
      · have : i % len = i - len := by
          rw [Nat.mod_eq_sub_mod (by omega), Nat.mod_eq_of_lt (by omega)]
        simp only [ringHalf, this]; omega
  obtain ⟨v, look, rfl, off, acc⟩ := key
  refine ⟨?_, ?_⟩
  · unfold Win.look at look
    simp only [winShows, look, Option.map, off]
  · simp only [Win.load, look, own, acc, Win.lost, mem, WinBytes.shown, zero]
    rfl

/-- C125: a creation that returns an error leaves nothing behind: its section has no handle and no view
any more. -/
theorem C125_failed {t : Target} {s0 : Win} (wf : WinWf t s0) (laid : WinLaid t s0) (space : WinRoom s0)
    {len : Nat} (fit : 2 * len < t.lim) {n : Nat} {s s' : Win} {j : WinRingJob} {e : Error}
    (run : WinRun t len s0 n s j) (step : j.step t s = .ok (s', .done (.error e))) {h : Nat}
    (had : j.handle = some h) :
    s'.handles h = none ∧ (∀ q x, s'.handles q = some x → x.id ≠ h) ∧ ∀ v, v ∈ s'.views → v.sec.id ≠ h := by
  have ok := winRun_ok wf laid space fit run
  rcases ringStep_ends step with hj | ⟨q, hj⟩ | ⟨⟨l, hj⟩, -⟩ <;> subst hj
  · cases had
  · cases had
    have o : WinOwnSec s0 s len h [] := ok.job
    cases step
    have closed : (s.dropHandle h).handles h = none := by simp [Win.dropHandle, Win.closeHandle]
    refine ⟨closed, fun q x hx hid => ?_, fun v hv hid => ?_⟩
    · have : q = h := by
        refine o.alone q x ?_ hid
        simp only [Win.dropHandle, Win.closeHandle] at hx
        split at hx
        · cases hx
        · exact hx
      subst this
      rw [closed] at hx
      cases hx
    · exact absurd (o.only v hv hid) (by simp)
  · cases had

/-- C125: it gives up only when Windows refuses a new section or address space (the error says so), or
after six attempts at finding neighbouring places, each of at least three calls. -/
theorem C125_six {t : Target} {s0 : Win} (wf : WinWf t s0) (laid : WinLaid t s0) (space : WinRoom s0)
    {len : Nat} (fit : 2 * len < t.lim) {n : Nat} {s : Win} {e : Error}
    (run : WinRun t len s0 n s (.done (.error e))) : e.op = .ringAllocate ∨ 1 + 6 * 3 + 1 ≤ n := by
  have := (winRun_ok wf laid space fit run).floor
  simp only [WinRingJob.floor] at this
  split at this
  · exact .inl ‹_›
  · exact .inr this

/-- C125: a place it has found is really free when it lets go of it, so an attempt fails only if Windows
refuses a view, or if somebody else took addresses of the place in the meantime. -/
theorem C125_refused {t : Target} {s0 : Win} (wf : WinWf t s0) (laid : WinLaid t s0) (space : WinRoom s0)
    {len : Nat} (fit : 2 * len < t.lim) (whole : s0.gran ∣ len) {n : Nat} {s s' : Win} {j j' : WinRingJob}
    (run : WinRun t len s0 n s j) (step : j.step t s = .ok (s', j')) :
    (∀ l full h left pg, j = .release l full h left pg → ¬ WinTaken s' pg (2 * len)) ∧
    (∀ l full h left pg, j = .first l full h left pg → s.choice.ok = true → ¬ WinTaken s pg len →
      j' = .second l full h left pg pg) ∧
    (∀ l full h left pg a, j = .second l full h left pg a → s.choice.ok = true →
      ¬ WinTaken s (pg + len) len → j' = .finish h (.ok pg)) := by
  have ok := winRun_ok wf laid space fit run
  have w := ok.fine
  have hpage := w.wf.page_pos
  have hround : s.roundPage len = len := by
    have := w.wf.page_dvd
    rw [w.gran] at this
    exact s.roundPage_dvd hpage (Nat.dvd_trans this whole)
  have hfree : ∀ a, ¬ WinTaken s a len → s.free a len = true := by
    intro a hn
    rw [Win.free, Bool.and_eq_true, List.all_eq_true, List.all_eq_true]
    refine ⟨fun v hv => decide_eq_true ?_, fun r hr => decide_eq_true ?_⟩
    · by_cases hc : v.base < a + len ∧ a < v.base + s.roundPage v.len
      · exact absurd (.inl ⟨v, hv, hc⟩) hn
      · omega
    · by_cases hc : r.1 < a + len ∧ a < r.1 + s.roundPage r.2
      · exact absurd (.inr ⟨r, hr, hc⟩) hn
      · omega
  have hview : ∀ h vs op a, WinOwnSec s0 s len h vs → a ≠ 0 → a % s.gran = 0 → a + len < t.lim →
      s.choice.ok = true → ¬ WinTaken s a len →
      ∃ s1, s.view t h op { read := true, write := true } 0 len a = .ok (s1, .ok a) := by
    intro h vs op a o h1 h2 h3 h4 h5
    have pos := o.pos
    simp only [Win.view, Win.hi32_eq t.lim_pos, Win.lo32_eq, bind, Except.bind, Win.mapViewOfFileEx, o.handle,
      if_neg h1, if_neg (Nat.ne_of_gt pos)]
    rw [if_pos]
    · exact ⟨_, rfl⟩
    · refine ⟨h4, by simp, by omega, by simp [ringSection]; omega, h1, h2, by omega, hfree a h5, rfl⟩
  refine ⟨?_, ?_, ?_⟩
  · rintro l full h left pg rfl
    obtain ⟨rfl, rfl, o, p, r⟩ := ok.job
    cases step
    have h2 := s.roundPage_le hpage (2 * l)
    rintro (⟨v, hv, h1⟩ | ⟨q, hq, h1⟩)
    · have := w.space.views _ r v hv
      dsimp only at this
      have e : (s.virtualFree pg).roundPage v.len = s.roundPage v.len := rfl
      rw [e] at h1
      omega
    · simp only [Win.virtualFree, List.mem_filter, decide_eq_true_eq] at hq
      have e : (s.virtualFree pg).roundPage q.2 = s.roundPage q.2 := rfl
      rw [e] at h1
      rcases w.two r hq.1 with g | g
      · rw [← g] at hq
        exact hq.2 rfl
      · dsimp only at g
        omega
  · rintro l full h left pg rfl hc hn
    obtain ⟨rfl, rfl, o, p⟩ := ok.job
    have := p.lim
    obtain ⟨s1, h1⟩ := hview h _ .ringPrimary pg o p.ne p.dvd (by omega) hc hn
    simp only [WinRingJob.step, bind, Except.bind, h1] at step
    cases step
    rfl
  · rintro l full h left pg a rfl hc hn
    obtain ⟨rfl, rfl, rfl, o, p⟩ := ok.job
    have := p.lim
    have := p.ne
    have hd : (a + l) % s.gran = 0 :=
      Nat.mod_eq_zero_of_dvd (Nat.dvd_add (Nat.dvd_of_mod_eq_zero p.dvd) (w.gran ▸ whole))
    obtain ⟨s1, h1⟩ := hview h _ .ringSecondary (a + l) o (by omega) hd (by omega) hc hn
    simp only [WinRingJob.step, bind, Except.bind, ptrAdd_ok (t := t) (a := a) (b := l) (by omega), h1] at step
    cases step
    rfl

/-! ### An example: somebody takes the place

A ring of 65536 bytes on the machine of `winDemo`.  The creation makes its section, reserves 131072
bytes at 68157440 (0x4100000) and releases them; then another thread gets a view at just that address. -/

def winRingAt (n : Nat) : Win × WinRingJob :=
  match WinRingJob.run ⟨.w64, true⟩ (winDemo []) (.create 65536) n with
  | .ok x => x
  | .error _ => (winDemo [], .create 0)

/-- Somebody else's view of 4096 bytes at `a`, of a section of their own. -/
def winTakes (s : Win) (a : Nat) : Win :=
  { s with views := ⟨a, 4096, ⟨s.next, none, .readwrite, 4096⟩, 0, { read := true, write := true }⟩ :: s.views
           next := s.next + 1 }

theorem winDemo_room (bad : List Nat) : WinRoom (winDemo bad) :=
  ⟨List.Pairwise.nil, fun _ h => (nomatch h)⟩

theorem winRing_three : WinRun ⟨.w64, true⟩ 65536 (winDemo []) 3 (winRingAt 3).1
    (.first 65536 131072 1 5 68157440) :=
  .own (s := (winRingAt 2).1) (j := .release 65536 131072 1 5 68157440)
    (.own (s := (winRingAt 1).1) (j := .reserve 65536 131072 1 5) (.own .start rfl) rfl) rfl

theorem winTakes_outside : WinOutside ⟨.w64, true⟩ 65536 (.first 65536 131072 1 5 68157440) (winRingAt 3).1
    (winTakes (winRingAt 3).1 68157440) where
  wf := by
    refine ⟨⟨12, 16, rfl, rfl, by decide, by decide⟩, fun v hv => ?_, fun _ h => (nomatch h), fun h x hx => ?_⟩
    · rcases List.mem_cons.mp hv with rfl | hv
      · exact ⟨by decide, by decide⟩
      · cases hv
    · have e : (winTakes (winRingAt 3).1 68157440).handles h =
        if h = 1 then some ⟨1, none, .readwrite, 131072⟩ else none := rfl
      rw [e] at hx
      split at hx
      · cases hx; subst h; exact ⟨by decide, by decide⟩
      · cases hx
  laid := by
    refine ⟨⟨12, 16, rfl, rfl, by decide, by decide⟩, fun v hv => ?_, List.pairwise_singleton _ _⟩
    rcases List.mem_cons.mp hv with rfl | hv
    · exact ⟨by decide, by decide, by decide, by decide, by decide⟩
    · cases hv
  space := ⟨List.Pairwise.nil, fun _ h => (nomatch h)⟩
  page := rfl
  gran := rfl
  next := by decide
  handle := fun _ _ => rfl
  reserved := fun _ h => by cases h
  views := fun _ h => by cases h
  own := fun h sec hh hs => by
    cases hh
    cases hs
    refine ⟨fun v hv hid => ?_, fun _ _ h _ => h, rfl, rfl⟩
    rcases List.mem_cons.mp hv with rfl | hv
    · exact absurd hid (by decide)
    · exact hv

/-- The state after the other thread took the place, and `n` more calls of the creation. -/
def winRingTaken (n : Nat) : Win × WinRingJob :=
  match WinRingJob.run ⟨.w64, true⟩ (winTakes (winRingAt 3).1 68157440) (.first 65536 131072 1 5 68157440) n with
  | .ok x => x
  | .error _ => (winDemo [], .create 0)

/-- The first attempt fails, the second finds 71303168 (0x4400000), and the ring is there after nine calls. -/
theorem winRingTaken_run : WinRun ⟨.w64, true⟩ 65536 (winDemo []) 8 (winRingTaken 5).1 (.finish 1 (.ok 71303168)) :=
  .own (s := (winRingTaken 4).1) (j := .second 65536 131072 1 4 71303168 71303168)
    (.own (s := (winRingTaken 3).1) (j := .first 65536 131072 1 4 71303168)
      (.own (s := (winRingTaken 2).1) (j := .release 65536 131072 1 4 71303168)
        (.own (s := (winRingTaken 1).1) (j := .reserve 65536 131072 1 4)
          (.own (.other winRing_three winTakes_outside) rfl) rfl) rfl) rfl) rfl

example : WinNewRing ⟨.w64, true⟩ (winDemo []) (winRingTaken 6).1 65536 71303168 ∧
    (winRingTaken 6).1.load (71303168 + 70000) = .ok 0 := by
  obtain ⟨h, id, -, h2⟩ := C125_result (winDemo_wf []) (winDemo_laid []) (winDemo_room []) (by decide)
    winRingTaken_run (fun _ h => by cases h) (s' := (winRingTaken 6).1) rfl
  exact ⟨h, (h2 70000 (by decide)).2⟩

/-- The attempt failed because the place was taken. -/
example : WinTaken (winTakes (winRingAt 3).1 68157440) 68157440 65536 :=
  .inl ⟨_, List.mem_cons_self, by decide, by decide⟩

/-- And it was free when the creation let go of it. -/
example : ¬ WinTaken (winRingAt 3).1 68157440 131072 :=
  (C125_refused (winDemo_wf []) (winDemo_laid []) (winDemo_room []) (len := 65536) (by decide) (by decide)
    (.own (s := (winRingAt 1).1) (j := .reserve 65536 131072 1 5) (.own .start rfl) rfl)
    (s := (winRingAt 2).1) (j := .release 65536 131072 1 5 68157440) rfl).1 _ _ _ _ _ rfl

/-- The other thread's view is untouched by the rest of the creation. -/
example : ∀ v, v.base = 68157440 → (v ∈ (winRingTaken 6).1.views ↔ v ∈ (winRingTaken 5).1.views) := by
  intro v hv
  refine (C125_others (winDemo_wf []) (winDemo_laid []) (winDemo_room []) (by decide) winRingTaken_run
    (s' := (winRingTaken 6).1) rfl).views v ?_ ?_ <;> rw [hv] <;> decide

/-- When Windows refuses the section, that is the answer, after one call. -/
example : WinWf ⟨.w64, true⟩ (winDemo [0]) ∧ WinLaid ⟨.w64, true⟩ (winDemo [0]) ∧
    ∃ e, WinRun ⟨.w64, true⟩ 65536 (winDemo [0]) 1 ((winDemo [0]).did
    (.createFileMapping none .readwrite 0 131072)) (.done (.error e)) ∧ e.op = .ringAllocate :=
  ⟨winDemo_wf [0], winDemo_laid [0], _, .own .start rfl, rfl⟩

/-- Two creations at once: a second one starts where the first has released its place, and neither
disturbs the other. -/
example : WinOutside ⟨.w64, true⟩ 65536 (.first 65536 131072 1 5 68157440) (winRingAt 3).1
    (((winRingAt 3).1.handleNew ⟨.w64, true⟩ .ringAllocate none .readwrite 8192).toOption.get rfl).1 := by
  have begun : WinRun ⟨.w64, true⟩ 4096 (winRingAt 3).1 0 (winRingAt 3).1 (.create 4096) := .start
  have ok := winRun_ok (winDemo_wf []) (winDemo_laid []) (winDemo_room []) (by decide) winRing_three
  exact (C125_apart ok.fine.wf ok.fine.laid ok.fine.space (winDemo_wf []) (winDemo_laid []) (winDemo_room [])
    (by decide) (by decide) begun winRing_three
    ⟨fun _ h => (by cases h), fun _ h => (by cases h), fun _ h => (by cases h)⟩
    (j' := .reserve 4096 8192 2 5) rfl).1

/-- All six attempts fail when Windows refuses every view, and then nothing is left. -/
def winRingSix (n : Nat) : Win × WinRingJob :=
  match WinRingJob.run ⟨.w64, true⟩ (winDemo [3, 6, 9, 12, 15, 18]) (.create 65536) n with
  | .ok x => x
  | .error _ => (winDemo [], .create 0)

example : (winRingSix 19).2 = .finish 1 (.error (Error.lastOsError .ringPrimary 5)) ∧
    (winRingSix 20).2 = .done (.error (Error.lastOsError .ringPrimary 5)) ∧
    (winRingSix 20).1.views = [] ∧ (winRingSix 20).1.handles 1 = none := ⟨rfl, rfl, rfl, rfl⟩

end Vmap
