import Verif.Proofs.Race
import Verif.Props.Open
import Verif.Spec.Demo
/-
Property theorems C111–C114: `map_if` and `open_if` while others work on the same files.
-/
namespace Vmap
open Kernel Spec

/-! ### C111 -/

/-- C111: with nobody interfering, four steps of the cut-up `map_if` are `map_if`. -/
theorem C111_alone (tab : SysTable) (t : Target) (k : Kernel) (o : Options) (fd : Nat) :
    MapJob.run tab t k o fd .stat 4 = (do
      let (k, r) ← o.mapIf tab t k fd
      return (k, .done r)) := by
  have hdone : ∀ n k r, MapJob.run tab t k o fd (.done r) n = .ok (k, .done r) := by
    intro n
    induction n with
    | zero => intro k r; rfl
    | succ n ih => intro k r; simp only [MapJob.run, MapJob.step, bind, Except.bind, pure, Except.pure]; exact ih k r
  have hmap : ∀ n k flen, MapJob.run tab t k o fd (.mmap flen) (n + 1) = (do
      let (k, r) ← o.mapStep t k fd flen
      return (k, .done r)) := by
    intro n k flen
    simp only [MapJob.run, MapJob.step, bind, Except.bind]
    cases o.mapStep t k fd flen with
    | error e => rfl
    | ok x => exact hdone n x.1 x.2
  have hafter : ∀ n k flen, MapJob.run tab t k o fd (MapJob.afterTruncate o flen) (n + 2) = (do
      let (k, r) ← (match Options.resizeStep tab k o fd flen with
        | (k, .error e) => (return (k, .error e) : Exec (Kernel × Result (Option MapMut)))
        | (k, .ok flen) => o.mapStep t k fd flen)
      return (k, .done r)) := by
    intro n k flen
    have hres : ∀ sz, MapJob.run tab t k o fd (.resize sz) (n + 2) = (do
        let (k, r) ← (match Options.resizeFile tab k fd sz with
          | (k, .error e) => (return (k, .error e) : Exec (Kernel × Result (Option MapMut)))
          | (k, .ok flen) => o.mapStep t k fd flen)
        return (k, .done r)) := by
      intro sz
      rw [MapJob.run]
      simp only [MapJob.step]
      generalize Options.resizeFile tab k fd sz = x
      obtain ⟨k1, r⟩ := x
      cases r with
      | error e => exact hdone _ _ _
      | ok m => exact hmap n k1 m
    unfold MapJob.afterTruncate Options.resizeStep
    cases o.resize with
    | endOf => exact hmap (n + 1) k flen
    | exact sz => exact hres sz
    | min sz =>
      simp only
      split
      · exact hres sz
      · exact hmap (n + 1) k flen
    | max sz =>
      simp only
      split
      · exact hres sz
      · exact hmap (n + 1) k flen
  rw [MapJob.run]
  simp only [MapJob.step, Options.mapIf]
  generalize File.len tab k fd = x
  obtain ⟨k1, r⟩ := x
  cases r with
  | error e => exact hdone _ _ _
  | ok m =>
    simp only
    unfold Options.truncateStep
    split
    · simp only [bind, Except.bind, pure, Except.pure]
      rw [MapJob.run]
      simp only [MapJob.step]
      generalize Options.resizeFile tab k1 fd 0 = x
      obtain ⟨k2, r⟩ := x
      cases r with
      | error e => exact hdone _ _ _
      | ok m => exact hafter 0 k2 m
    · exact hafter 1 k1 _

/-- C111: whatever others do meanwhile, `map_if` does not panic, and is over after four system calls
at most. -/
theorem C111_ends (tab : SysTable) (t : Target) (o : Options) (fd : Nat) (E : Kernel → Kernel → Prop)
    (k0 : Kernel) (w : Wf t k0) (hfit : Fits t o) (f : Fd) (hf : k0.fds fd = some f) {n h k j}
    (r : MapRun tab t o fd E k0 n h k j) :
    (∃ k' j', j.step tab t k o fd = .ok (k', j')) ∧ (4 ≤ n → ∃ ret, j = .done ret) := by
  have i := maprun_inv w hfit hf r
  refine ⟨?_, fun hn => ?_⟩
  · obtain ⟨k', j', h, -⟩ := i.own (tab := tab) hfit
    exact ⟨k', j', h⟩
  · rcases i.rank with h | h
    · cases j with
      | done ret => exact ⟨ret, rfl⟩
      | _ => simp only [MapJob.rank] at h; omega
    · exact h

/-- C111: every system call of `map_if` either cuts or extends the file — to a length the options
name — and does nothing else, or makes the map that is returned and does nothing else: it maps pages
that were free, and no byte of any file changes. -/
theorem C111_others (tab : SysTable) (t : Target) (o : Options) (fd : Nat)
    (E : Kernel → Kernel → Prop) (k0 : Kernel) (w : Wf t k0) (hfit : Fits t o) (f : Fd)
    (hf : k0.fds fd = some f) {n h k j k' j'} (r : MapRun tab t o fd E k0 n h k j)
    (s : j.step tab t k o fd = .ok (k', j')) (hj : ∀ ret, j ≠ .done ret) :
    (Cut k k' f.obj (lengths o.truncate o.resize) ∧ ∀ m, j' ≠ .done (.ok (some m))) ∨
    (SameButPages k k' ∧ ∃ m p n, j' = .done (.ok (some m)) ∧ f.canRead = true ∧
      (sharedOf o.protect = true → (protOf o.protect).w = true → f.canWrite = true) ∧
      Mapped t k k' m.ptr m.len f.obj o.offset (sharedOf o.protect)
        (!sharedOf o.protect || f.canWrite) (protOf o.protect) p n) := by
  have i := maprun_inv w hfit hf r
  obtain ⟨k1, j1, h1, h2, -⟩ := i.own (tab := tab) hfit
  rw [h1] at s
  injection s with s; injection s with s1 s2
  subst s1 s2
  rcases h2.effect with ⟨a, b⟩ | ⟨a, flen, m, p, n, -, b, c, d, -, -, e⟩
  · exact .inl ⟨a, fun m hm => hj _ ((b m hm).trans hm)⟩
  · exact .inr ⟨a, m, p, n, b, c, d, e⟩

/-- C111: what `map_if` returns is right for a length that the file had at some moment during the
call: `Ok(None)` if, at that length (after truncation and resizing), the range lies outside; a map
of the length that range has otherwise. -/
theorem C111_result (tab : SysTable) (t : Target) (o : Options) (fd : Nat)
    (E : Kernel → Kernel → Prop) (k0 : Kernel) (w : Wf t k0) (hfit : Fits t o) (f : Fd)
    (hf : k0.fds fd = some f) {n h k mo} (r : MapRun tab t o fd E k0 n h k (.done (.ok mo))) :
    ∃ k1 ∈ h,
      (mo = none →
        ¬ InRange (newLen o.truncate o.resize (k1.size f.obj % t.lim)) o.offset o.len) ∧
      (∀ m, mo = some m →
        InRange (newLen o.truncate o.resize (k1.size f.obj % t.lim)) o.offset o.len ∧
        m.len = wanted (newLen o.truncate o.resize (k1.size f.obj % t.lim)) o.offset o.len) := by
  have i := maprun_inv w hfit hf r
  have s := i.seen
  cases mo with
  | none =>
    obtain ⟨k1, a, b⟩ := s
    exact ⟨k1, a, fun _ => b, fun m h => by cases h⟩
  | some m =>
    obtain ⟨k1, a, b⟩ := s
    exact ⟨k1, a, (fun h => by cases h), fun m' h => by injection h with h; subst h; exact b⟩

/-! ### C112 -/

/-- C112: with nobody interfering, six steps of the cut-up `open_if` are `open_if`. -/
theorem C112_alone (tab : SysTable) (t : Target) (k : Kernel) (o : Options) (path : String) :
    OpenJob.run tab t k o path .start 6 = (do
      let (k, r) ← o.openIf tab t k path
      return (k, .done r)) := by
  have hdone : ∀ n k r, OpenJob.run tab t k o path (.done r) n = .ok (k, .done r) := by
    intro n
    induction n with
    | zero => intro k r; rfl
    | succ n ih =>
      intro k r; simp only [OpenJob.run, OpenJob.step, bind, Except.bind, pure, Except.pure]; exact ih k r
  have hmap : ∀ n k fd j, (∀ r, j ≠ .done r) → OpenJob.run tab t k o path (.mapping fd j) (n + 1) =
      match MapJob.run tab t k o fd j n with
      | .error e => .error e
      | .ok (k, .done (.error e)) => .ok (k.close fd, .done (.error e))
      | .ok (k, .done (.ok m)) => .ok (k, .done (.ok (m, fd)))
      | .ok (k, j) => OpenJob.run tab t k o path (.mapping fd j) 1 := by
    intro n
    induction n with
    | zero =>
      intro k fd j hj
      simp only [MapJob.run]
      cases j with
      | done r => exact absurd rfl (hj r)
      | _ => rfl
    | succ n ih =>
      intro k fd j hj
      rw [OpenJob.run, MapJob.run]
      simp only [OpenJob.step, bind, Except.bind]
      cases hs : j.step tab t k o fd with
      | error e => rfl
      | ok x =>
        obtain ⟨k1, j1⟩ := x
        have mdone : ∀ n r, MapJob.run tab t k1 o fd (.done r) n = .ok (k1, .done r) := by
          intro n
          induction n with
          | zero => intro r; rfl
          | succ n ih =>
            intro r
            simp only [MapJob.run, MapJob.step, bind, Except.bind, pure, Except.pure]; exact ih r
        cases j1 with
        | done r =>
          cases r with
          | error e =>
            simp only [mdone]
            simp only [OpenJob.run, OpenJob.step, bind, Except.bind, pure, Except.pure]
            exact hdone _ _ _
          | ok m =>
            simp only [mdone]
            exact hdone _ _ _
        | stat => exact ih k1 fd _ (fun r h => by cases h)
        | truncate => exact ih k1 fd _ (fun r h => by cases h)
        | resize sz => exact ih k1 fd _ (fun r h => by cases h)
        | mmap flen => exact ih k1 fd _ (fun r h => by cases h)
  rw [OpenJob.run]
  simp only [OpenJob.step, Options.openIf]
  generalize o.openOptions.open tab k path = x
  obtain ⟨k1, r⟩ := x
  cases r with
  | error e => exact hdone _ _ _
  | ok fd =>
    simp only [bind, Except.bind, pure, Except.pure]
    rw [hmap 4 k1 fd .stat (fun r h => by cases h), C111_alone]
    cases o.mapIf tab t k1 fd with
    | error e => rfl
    | ok x =>
      obtain ⟨k2, r⟩ := x
      cases r with
      | error e => rfl
      | ok m => rfl

/-- C112: whatever others do meanwhile, `open_if` does not panic, and is over after six system calls
at most. -/
theorem C112_ends (tab : SysTable) (t : Target) (o : Options) (path : String)
    (k0 : Kernel) (w : Wf t k0) (hfit : Fits t o) {n h k j}
    (r : OpenRun tab t o path k0 n h k j) :
    (∃ k' j', j.step tab t k o path = .ok (k', j')) ∧ (6 ≤ n → ∃ ret, j = .done ret) := by
  have i := openrun_inv w hfit r
  refine ⟨?_, fun hn => ?_⟩
  · obtain ⟨k', j', h, -⟩ := i.own (tab := tab) hfit
    exact ⟨k', j', h⟩
  · cases j with
    | done ret => exact ⟨ret, rfl⟩
    | start => have := i.start rfl; omega
    | mapping fd mj =>
      obtain ⟨x, -, -, h1, h2, -⟩ := i.mapping fd mj rfl
      omega
    | abandon fd e => have := (i.abandon fd e rfl).1; omega

/-- C112: no system call of `open_if` touches anything but its own descriptor, the file being opened
and free pages. -/
theorem C112_others (tab : SysTable) (t : Target) (o : Options) (path : String)
    (k0 : Kernel) (w : Wf t k0) (hfit : Fits t o) (hb : o.openOptions.truncate = o.truncate)
    {n h k j k' j'} (r : OpenRun tab t o path k0 n h k j)
    (s : j.step tab t k o path = .ok (k', j')) :
    Harmless o path j.fd j'.fd k k' := by
  have i := openrun_inv w hfit r
  obtain ⟨k1, j1, h1, h2, -⟩ := i.own (tab := tab) hfit
  rw [h1] at s
  injection s with s; injection s with s1 s2
  subst s1 s2
  exact h2.harmless hb

/-- C112: a system call of `open_if` that does not return a map maps nothing, and a failed `open_if`
has closed the descriptor it held. -/
theorem C112_leaves_nothing (tab : SysTable) (t : Target) (o : Options) (path : String)
    (k0 : Kernel) (w : Wf t k0) (hfit : Fits t o) {n h k j k' j'}
    (r : OpenRun tab t o path k0 n h k j) (s : j.step tab t k o path = .ok (k', j')) :
    ((∀ m fd, j' ≠ .done (.ok (some m, fd))) → k'.pt = k.pt) ∧
    (∀ e, j' = .done (.error e) → ∀ d, j.fd = some d → k'.fds d = none) := by
  have i := openrun_inv w hfit r
  obtain ⟨k1, j1, h1, h2, -⟩ := i.own (tab := tab) hfit
  rw [h1] at s
  injection s with s; injection s with s1 s2
  subst s1 s2
  exact ⟨fun hne => h2.pt (fun m fd h => absurd h (hne m fd)), h2.failed⟩

/-- C112: what `open_if` returns.  The descriptor is one that was not in use at some moment during the
call; it is open for reading, and for writing iff asked for; its file either had the name at that
moment or was created then, because the name was free and creation was asked for.  The map (or
its absence) is right for a length that the file had at some moment during the call. -/
theorem C112_result (tab : SysTable) (t : Target) (o : Options) (path : String)
    (k0 : Kernel) (w : Wf t k0) (hfit : Fits t o) {n h k j k' mo fd}
    (r : OpenRun tab t o path k0 n h k j) (hj : ∀ ret, j ≠ .done ret)
    (s : j.step tab t k o path = .ok (k', .done (.ok (mo, fd)))) :
    k'.fds = k.fds ∧ ∃ x, k'.fds fd = some ⟨x, true, o.openOptions.write⟩ ∧
      (∃ k1 ∈ h, k1.fds fd = none ∧
        (k1.names path = some x ∧ o.openOptions.createNew = false ∨
          k1.names path = none ∧ k1.fresh ≤ x ∧ k0.fresh ≤ x ∧ o.openOptions.write = true ∧
            (o.openOptions.create = true ∨ o.openOptions.createNew = true))) ∧
      (∃ k1 ∈ k :: h,
        (mo = none →
          ¬ InRange (newLen o.truncate o.resize (k1.size x % t.lim)) o.offset o.len) ∧
        (∀ m, mo = some m →
          InRange (newLen o.truncate o.resize (k1.size x % t.lim)) o.offset o.len ∧
          m.len = wanted (newLen o.truncate o.resize (k1.size x % t.lim)) o.offset o.len)) ∧
      (∀ m, mo = some m → ∃ p n, Mapped t k k' m.ptr m.len x o.offset (sharedOf o.protect)
        (!sharedOf o.protect || o.openOptions.write) (protOf o.protect) p n) := by
  have i := openrun_inv w hfit r
  obtain ⟨k1, j1, h1, h2, -⟩ := i.own (tab := tab) hfit
  rw [h1] at s
  injection s with s; injection s with s1 s2
  subst s1
  obtain ⟨a, b, x, c, d, e⟩ := h2.result mo fd s2 (fun h => hj _ (h.trans s2))
  refine ⟨b, x, by rw [b]; exact c, ?_, ?_, e⟩
  · cases j with
    | mapping fd' mj =>
      injection a with a
      subst a
      obtain ⟨y, i1, -, -, -, k2, i5, i6, i7⟩ := i.mapping fd' mj rfl
      rw [c] at i1
      injection i1 with i1
      injection i1 with i1
      subst i1
      refine ⟨k2, i5, i6, ?_⟩
      rcases i7 with g | ⟨g1, g2, g3, g4⟩
      · exact .inl g
      · exact .inr ⟨g1, g2, Nat.le_trans g3 g2, g4⟩
    | start => cases a
    | abandon fd' e =>
      simp only [OpenJob.step] at h1
      injection h1 with h1; injection h1 with _ h1
      rw [s2] at h1
      injection h1 with h1; cases h1
    | done ret => exact absurd rfl (hj ret)
  · cases mo with
    | none =>
      obtain ⟨k1, a, b⟩ := d
      exact ⟨k1, a, fun _ => b, fun m h => by cases h⟩
    | some m =>
      obtain ⟨k1, a, b⟩ := d
      exact ⟨k1, a, (fun h => by cases h), fun m' h => by injection h with h; subst h; exact b⟩

/-! ### A concrete race for the examples and counterexamples -/

/-- Some error texts. -/
def raceTab : SysTable := ⟨fun _ => .other 0, fun _ => ""⟩

/-- The next state of a call of `map_if`. -/
def MapJob.next! (o : Options) (fd : Nat) (s : Kernel × MapJob) : Kernel × MapJob :=
  match s.2.step raceTab ⟨.w64, true⟩ s.1 o fd with
  | .ok x => x
  | .error _ => s

theorem MapJob.next!_eq {o : Options} {fd : Nat} {s : Kernel × MapJob}
    (h : (s.2.step raceTab ⟨.w64, true⟩ s.1 o fd).isOk = true) :
    s.2.step raceTab ⟨.w64, true⟩ s.1 o fd =
      .ok ((MapJob.next! o fd s).1, (MapJob.next! o fd s).2) := by
  unfold MapJob.next!
  cases hx : s.2.step raceTab ⟨.w64, true⟩ s.1 o fd with
  | ok x => rfl
  | error e => rw [hx] at h; cases h

/-- The next state of a call of `open_if`. -/
def OpenJob.next! (o : Options) (path : String) (s : Kernel × OpenJob) : Kernel × OpenJob :=
  match s.2.step raceTab ⟨.w64, true⟩ s.1 o path with
  | .ok x => x
  | .error _ => s

theorem OpenJob.next!_eq {o : Options} {path : String} {s : Kernel × OpenJob}
    (h : (s.2.step raceTab ⟨.w64, true⟩ s.1 o path).isOk = true) :
    s.2.step raceTab ⟨.w64, true⟩ s.1 o path =
      .ok ((OpenJob.next! o path s).1, (OpenJob.next! o path s).2) := by
  unfold OpenJob.next!
  cases hx : s.2.step raceTab ⟨.w64, true⟩ s.1 o path with
  | ok x => rfl
  | error e => rw [hx] at h; cases h

/-- Another process makes object `x` a file of `n` bytes 7. -/
def rewrite (x n : Nat) (k : Kernel) : Kernel :=
  { k with
    size := fun o => if o = x then n else k.size o
    data := fun o i => if o = x then (if i < n then 7 else 0) else k.data o i }

theorem rewrite_outside {t : Target} {k : Kernel} (w : Wf t k) (x n : Nat) (fd : Option Nat) :
    Outside t fd k (rewrite x n k) :=
  ⟨w.same rfl rfl rfl rfl rfl rfl, rfl, fun _ _ => rfl, Nat.le_refl _⟩

/-- The state after `fstat`, with the file "data" rewritten by another process right then. -/
def raceStat (o : Options) (n : Nat) : Kernel × MapJob :=
  let s := MapJob.next! o 3 (demo 0, .stat)
  (rewrite 0 n s.1, s.2)

theorem raceStat_run (o : Options) (hfit : Fits ⟨.w64, true⟩ o) (n : Nat)
    (h1 : (MapJob.step raceTab ⟨.w64, true⟩ (demo 0) o 3 .stat).isOk = true) :
    ∃ h, MapRun raceTab ⟨.w64, true⟩ o 3 Free (demo 0) 1 h (raceStat o n).1 (raceStat o n).2 := by
  have r1 : MapRun raceTab ⟨.w64, true⟩ o 3 Free (demo 0) 1 [demo 0]
      (MapJob.next! o 3 (demo 0, .stat)).1 (MapJob.next! o 3 (demo 0, .stat)).2 :=
    .own .start (MapJob.next!_eq (s := (demo 0, .stat)) h1)
  have i := maprun_inv (demo_wf 0) hfit (f := ⟨0, true, true⟩) rfl r1
  exact ⟨_, .other r1 (rewrite_outside i.wf 0 n _) trivial⟩

/-! ### C113 -/

/-- C113: with `create_new`, whatever others do meanwhile, a file that is returned did not exist when
the call began, and came into being at a moment when the name was free. -/
theorem C113_exclusive_partial (tab : SysTable) (t : Target) (o : Options) (path : String)
    (k0 : Kernel) (w : Wf t k0) (hfit : Fits t o) (hnew : o.openOptions.createNew = true)
    {n h k j k' mo fd}
    (r : OpenRun tab t o path k0 n h k j) (hj : ∀ ret, j ≠ .done ret)
    (s : j.step tab t k o path = .ok (k', .done (.ok (mo, fd)))) :
    ∃ x k1, k1 ∈ h ∧ k'.fds fd = some ⟨x, true, true⟩ ∧ k0.fresh ≤ x ∧ k1.fresh ≤ x ∧
      k1.names path = none := by
  obtain ⟨-, x, a, ⟨k1, b, -, c⟩, -⟩ := C112_result tab t o path k0 w hfit r hj s
  rcases c with ⟨-, c⟩ | ⟨c1, c2, c3, c4, -⟩
  · rw [hnew] at c; cases c
  · exact ⟨x, k1, b, by rw [a, c4], c3, c2, c1⟩

/-- C113: with `create_new` and nobody interfering, `create` and `truncate` make no difference
whatsoever. -/
theorem C113_ignored_partial (tab : SysTable) (t : Target) (k : Kernel) (o : Options)
    (path : String) (hnew : o.openOptions.createNew = true) (a b a' b' : Bool) :
    ((o.create a).setTruncate b).openIf tab t k path =
      ((o.create a').setTruncate b').openIf tab t k path ∧
    ((o.create a).setTruncate b).open_ tab t k path =
      ((o.create a').setTruncate b').open_ tab t k path := by
  have key : ∀ a b, ((o.create a).setTruncate b).openIf tab t k path = o.openIf tab t k path := by
    intro a b
    have hopen : ((o.create a).setTruncate b).openOptions.open tab k path =
        o.openOptions.open tab k path := by
      simp only [OpenOptions.open, Options.create, Options.setTruncate, hnew, Bool.or_true,
        Bool.and_true, if_true]
    have ho := open_outcome tab k o.openOptions path
    simp only [Options.openIf, hopen]
    generalize o.openOptions.open tab k path = x at ho
    obtain ⟨k1, r1⟩ := x
    simp only at ho
    cases r1 with
    | error e => rfl
    | ok fd =>
      have hfd : ∃ f, k1.fds fd = some f ∧ k1.size f.obj = 0 := by
        cases ho with
        | existing _ x name new => rw [hnew] at new; cases new
        | created name asks write => exact ⟨_, if_pos rfl, if_pos rfl⟩
      obtain ⟨f, hf, hs⟩ := hfd
      have := mapIf_empty tab t k1 o fd hf hs ((o.create a).setTruncate b).openOptions b
      have e : ({ o with openOptions := ((o.create a).setTruncate b).openOptions, truncate := b } : Options)
          = (o.create a).setTruncate b := rfl
      rw [e] at this
      simp only [this]
  have h1 : ((o.create a).setTruncate b).openIf tab t k path =
      ((o.create a').setTruncate b').openIf tab t k path := (key a b).trans (key a' b').symm
  refine ⟨h1, ?_⟩
  -- `open` is determined by `open_if` (C36)
  obtain ⟨p1, p2, p3, p4⟩ := C36_open tab t k ((o.create a).setTruncate b) path
  obtain ⟨q1, q2, q3, q4⟩ := C36_open tab t k ((o.create a').setTruncate b') path
  rw [h1] at p1 p2 p3 p4
  cases hr : ((o.create a').setTruncate b').openIf tab t k path with
  | error x => rw [p4 x hr, q4 x hr]
  | ok y =>
    obtain ⟨k1, r⟩ := y
    cases r with
    | error e => rw [p2 k1 e hr, q2 k1 e hr]
    | ok z =>
      obtain ⟨mo, fd⟩ := z
      cases mo with
      | some m => rw [p1 k1 m fd hr, q1 k1 m fd hr]
      | none =>
        have hif : ∀ o' : Options, o'.openIf tab t k path = .ok (k1, .ok (none, fd)) →
            o'.open_ tab t k path = .ok (k1.close fd, .error (Error.input .mapFile .invalidRange)) := by
          intro o' ho'
          simp only [Options.openIf] at ho'
          simp only [Options.open_]
          generalize o'.openOptions.open tab k path = x at ho'
          obtain ⟨k2, r2⟩ := x
          cases r2 with
          | error e => injection ho' with ho'; injection ho' with _ ho'; cases ho'
          | ok fd2 =>
            simp only [Options.map, bind, Except.bind] at ho' ⊢
            cases hm : o'.mapIf tab t k2 fd2 with
            | error e => rw [hm] at ho'; cases ho'
            | ok z =>
              obtain ⟨k3, r3⟩ := z
              rw [hm] at ho'
              cases r3 with
              | error e => injection ho' with ho'; injection ho' with _ ho'; cases ho'
              | ok mo =>
                injection ho' with ho'; injection ho' with s1 s2
                injection s2 with s2; injection s2 with s2 s3
                subst s1 s2 s3
                rfl
        rw [hif _ hr, hif _ (h1.trans hr)]

/-- The options of the counterexample: `create_new(true).truncate(true)`. -/
def raceNew : Options := (Options.newMut.createNew true).setTruncate true

/-- The new file is created; before `fstat`, another process writes six bytes to it. -/
def raceCreated : Kernel × OpenJob :=
  let s := OpenJob.next! raceNew "new" (demo 0, .start)
  (rewrite 1 6 s.1, s.2)

/-- C113 in full is false: `truncate` is not ignored with `create_new`.  If another process writes to
the new file before its length has been read, `truncate` deletes what it wrote.
(Without `truncate`, `C112_others` says, the same call leaves the six bytes alone.) -/
theorem C113_full_false :
    ∃ (k k' : Kernel) (h : List Kernel) (j j' : OpenJob),
      raceNew.openOptions.createNew = true ∧
      OpenRun raceTab ⟨.w64, true⟩ raceNew "new" (demo 0) 2 h k j ∧
      j.step raceTab ⟨.w64, true⟩ k raceNew "new" = .ok (k', j') ∧
      k.names "new" = some 1 ∧ k.size 1 = 6 ∧ k.data 1 5 = 7 ∧ k'.size 1 = 0 ∧
      ¬ ∃ n ∈ lengths false raceNew.resize, Resized k k' 1 (k.size 1) n := by
  have hfit : Fits ⟨.w64, true⟩ raceNew := ⟨trivial, trivial, by show 0 < 2 ^ 64; decide⟩
  have r1 : OpenRun raceTab ⟨.w64, true⟩ raceNew "new" (demo 0) 1 [demo 0]
      (OpenJob.next! raceNew "new" (demo 0, .start)).1
      (OpenJob.next! raceNew "new" (demo 0, .start)).2 :=
    .own .start (OpenJob.next!_eq (s := (demo 0, .start)) (by decide +kernel))
  have i := openrun_inv (demo_wf 0) hfit r1
  have r2 : OpenRun raceTab ⟨.w64, true⟩ raceNew "new" (demo 0) 1 _
      raceCreated.1 raceCreated.2 := .other r1 (rewrite_outside i.wf 1 6 _)
  have r3 := OpenRun.own r2 (OpenJob.next!_eq (s := raceCreated) (by decide +kernel))
  refine ⟨_, _, _, _, _, rfl, r3,
    OpenJob.next!_eq (s := OpenJob.next! raceNew "new" raceCreated) (by decide +kernel),
    by decide +kernel, by decide +kernel, by decide +kernel, by decide +kernel, ?_⟩
  rintro ⟨n, hn, -⟩
  have : lengths false raceNew.resize = [] := rfl
  rw [this] at hn
  cases hn

/-- The hypotheses of C113 hold for a call that succeeds: `create_new(true).resize(10)`. -/
example : (((Options.newMut.createNew true).setResize (.exact 10)).openOptions.createNew = true) ∧
    (match ((Options.newMut.createNew true).setResize (.exact 10)).openIf raceTab ⟨.w64, true⟩
        (demo 0) "new" with
      | .ok (k, .ok (some m, fd)) => m.len == 10 && fd == 5 && k.size 1 == 10
      | _ => false) = true := ⟨rfl, by decide +kernel⟩

/-! ### C114 -/

/-- C114, where nobody else changes the length of the file during the call (and it fits the address
space): `Min` never shortens it, `Max` never lengthens it, and a map that is returned lies inside
it.

Full statement: the same for all `MapRun`s, that is with `Free` in place of `KeepsLength`.  That
is false: `C114_min_false`, `C114_max_false`, `C114_inside_false`. -/
theorem C114_partial (tab : SysTable) (t : Target) (o : Options) (fd : Nat)
    (k0 : Kernel) (w : Wf t k0) (hfit : Fits t o) (f : Fd)
    (hf : k0.fds fd = some f) (hs0 : k0.size f.obj < t.lim) {n h k j k' j'}
    (r : MapRun tab t o fd (KeepsLength f.obj) k0 n h k j)
    (s : j.step tab t k o fd = .ok (k', j')) :
    (o.truncate = false → ∀ l, o.resize = .min l → k.size f.obj ≤ k'.size f.obj) ∧
    (∀ l, o.resize = .max l → k'.size f.obj ≤ k.size f.obj) ∧
    (∀ m, j' = .done (.ok (some m)) → o.offset + m.len ≤ k'.size f.obj ∧
      k'.size f.obj = newLen o.truncate o.resize (k0.size f.obj)) := by
  have i := maprun_inv w hfit hf r
  have q := maprun_quiet w hfit hf hs0 r
  have q' := quiet_step tab i.wf hfit i.fd hs0 q s
  have z := mapjob_size i.wf hfit i.fd i.seen s
  refine ⟨fun htr l hl => ?_, fun l hl => ?_, ?_⟩
  · rcases z with z | ⟨z, -⟩ | ⟨sz, z, z'⟩
    · omega
    · subst z
      have := q.2
      rw [htr] at this; cases this
    · subst z
      have := q.2.2.1 l hl
      omega
  · rcases z with z | ⟨-, z⟩ | ⟨sz, z, z'⟩
    · omega
    · omega
    · subst z
      have := q.2.2.2 l hl
      omega
  · intro m hm
    subst hm
    exact ⟨q'.2, q'.1⟩

/-- Options that fit. -/
theorem race_fits {o : Options} (h1 : o.offset = 0) (h2 : o.len = .endOf)
    (h3 : Extent.Fits ⟨.w64, true⟩ o.resize) : Fits ⟨.w64, true⟩ o :=
  ⟨h3, by rw [h2]; trivial, by rw [h1]; show 0 < 2 ^ 64; decide⟩

/-- C114 in full is false: `resize(Min(20000))` shortens a file, from 30000 bytes to 20000, that
another process has extended since its length was read. -/
theorem C114_min_false :
    ∃ (o : Options) (k k' : Kernel) (h : List Kernel) (j j' : MapJob),
      o.truncate = false ∧ o.resize = .min 20000 ∧
      MapRun raceTab ⟨.w64, true⟩ o 3 Free (demo 0) 1 h k j ∧
      j.step raceTab ⟨.w64, true⟩ k o 3 = .ok (k', j') ∧
      k.fds 3 = some ⟨0, true, true⟩ ∧ k.size 0 = 30000 ∧ k'.size 0 = 20000 := by
  obtain ⟨h, r⟩ := raceStat_run (Options.newMut.setResize (.min 20000))
    (race_fits rfl rfl (by show 20000 < 2 ^ 64; decide)) 30000 (by decide +kernel)
  exact ⟨_, _, _, h, _, _, rfl, rfl, r, MapJob.next!_eq (by decide +kernel), rfl,
    by decide +kernel, by decide +kernel⟩

/-- C114 in full is false: `resize(Max(5000))` extends a file, from 100 bytes to 5000, that another
process has shortened since its length was read. -/
theorem C114_max_false :
    ∃ (o : Options) (k k' : Kernel) (h : List Kernel) (j j' : MapJob),
      o.truncate = false ∧ o.resize = .max 5000 ∧
      MapRun raceTab ⟨.w64, true⟩ o 3 Free (demo 0) 1 h k j ∧
      j.step raceTab ⟨.w64, true⟩ k o 3 = .ok (k', j') ∧
      k.fds 3 = some ⟨0, true, true⟩ ∧ k.size 0 = 100 ∧ k'.size 0 = 5000 := by
  obtain ⟨h, r⟩ := raceStat_run (Options.newMut.setResize (.max 5000))
    (race_fits rfl rfl (by show 5000 < 2 ^ 64; decide)) 100 (by decide +kernel)
  exact ⟨_, _, _, h, _, _, rfl, rfl, r, MapJob.next!_eq (by decide +kernel), rfl,
    by decide +kernel, by decide +kernel⟩

/-- The map that a finished call returned. -/
def MapJob.map? : MapJob → Option MapMut
  | .done (.ok (some m)) => some m
  | _ => none

theorem MapJob.map?_eq {j : MapJob} {m : MapMut} (h : j.map? = some m) : j = .done (.ok (some m)) := by
  unfold MapJob.map? at h
  split at h
  · injection h with h; rw [h]
  · cases h

/-- C114 in full is false: `map` returns a map of 10000 bytes of a file that another process has
emptied since its length was read; the first load from it is a SIGBUS. -/
theorem C114_inside_false :
    ∃ (o : Options) (k k' : Kernel) (h : List Kernel) (j : MapJob) (m : MapMut),
      MapRun raceTab ⟨.w64, true⟩ o 3 Free (demo 0) 1 h k j ∧
      j.step raceTab ⟨.w64, true⟩ k o 3 = .ok (k', .done (.ok (some m))) ∧
      k'.fds 3 = some ⟨0, true, true⟩ ∧ m.len = 10000 ∧ k'.size 0 = 0 ∧
      k'.load m.ptr = .error .memory := by
  obtain ⟨h, r⟩ := raceStat_run Options.newMut
    (race_fits rfl rfl trivial) 0 (by decide +kernel)
  have s := MapJob.next!_eq (o := Options.newMut) (fd := 3) (s := raceStat Options.newMut 0)
    (by decide +kernel)
  have hm : (MapJob.next! Options.newMut 3 (raceStat Options.newMut 0)).2.map? =
    some ⟨8192000, 10000⟩ := by decide +kernel
  rw [MapJob.map?_eq hm] at s
  exact ⟨_, _, _, h, _, _, r, s, by decide +kernel, rfl, by decide +kernel,
    by decide +kernel⟩

/-- The hypotheses hold for a call with a race in it, on a file of 10000 bytes. -/
example : Wf ⟨.w64, true⟩ (demo 0) ∧ Fits ⟨.w64, true⟩ Options.newMut ∧
    (demo 0).fds 3 = some ⟨0, true, true⟩ ∧ (demo 0).size 0 < Target.lim ⟨.w64, true⟩ ∧
    Options.newMut.openOptions.truncate = Options.newMut.truncate ∧
    ∃ h, MapRun raceTab ⟨.w64, true⟩ Options.newMut 3 Free (demo 0) 1 h
      (raceStat Options.newMut 5).1 (raceStat Options.newMut 5).2 :=
  ⟨demo_wf 0, race_fits rfl rfl trivial, rfl, by decide, rfl,
    raceStat_run _ (race_fits (o := Options.newMut) rfl rfl trivial) 5 (by decide +kernel)⟩

end Vmap
