import Verif.Proofs.WinDisk
import Verif.Props.WinFile
/-
C159: programs on Windows that open files by name.
-/
namespace Vmap
open Spec

variable {tab : SysTable} {t : Target}

/-- C159: at every point of every program, there are exactly the views that were there at the start, those of
the maps and rings it holds, and those of empty maps that were dropped; each belongs to one of them
only; no section handle is open and no address reserved that was not at the start. -/
theorem C159_views {fs0 : WinFs} (wf : WinFsWf t fs0) (laid : WinLaid t fs0.win) {x : FsWorld} (h : FsReach tab t fs0 x) :
    x.fs.win.handles = fs0.win.handles ∧ x.fs.win.reserved = fs0.win.reserved ∧
    (∀ i y, x.held i = some y → WinHandle.There fs0.win.gran x.fs.win.views y) ∧
    (∀ v, v ∈ fs0.win.views → v ∈ x.fs.win.views ∧ ∀ i y, x.held i = some y → ¬ WinHandle.Owns fs0.win.gran y v) ∧
    (∀ v, v ∈ x.fs.win.views → v ∈ fs0.win.views ∨ (∃ i y, x.held i = some y ∧ WinHandle.Owns fs0.win.gran y v) ∨
      ∃ m, m ∈ x.empties ∧ MapView fs0.win.gran m v) ∧
    (∀ v, v ∈ x.fs.win.views → ∀ i j y z, x.held i = some y → x.held j = some z →
      WinHandle.Owns fs0.win.gran y v → WinHandle.Owns fs0.win.gran z v → i = j) := by
  have v := (h.inv wf laid).inv
  exact ⟨v.keeps.handles, v.keeps.reserved, v.there, fun y hy => ⟨v.base y hy, fun i g hg => v.oneStart i g y hy hg⟩,
    v.all, fun y hy i j g g' hi hj o o' => v.one i j g g' y hy hi hj o o'⟩

/-- C159: and exactly the files are open that were at the start and those the program holds, which were not;
every name that was there at the start still names the same file. -/
theorem C159_files {fs0 : WinFs} (wf : WinFsWf t fs0) (laid : WinLaid t fs0.win) {x : FsWorld} (h : FsReach tab t fs0 x) :
    (∀ q, x.files q = true → fs0.opened q = none ∧ ∃ f w, x.fs.opened q = some (f, w) ∧ ∃ n, x.fs.win.files f = some n) ∧
    (∀ q, x.files q = false → x.fs.opened q = fs0.opened q) ∧
    ∀ p f, fs0.names p = some f → x.fs.names p = some f := by
  have v := h.inv wf laid
  refine ⟨fun q hq => ?_, v.rest, v.names⟩
  obtain ⟨h1, h2⟩ := v.mine q hq
  cases e : x.fs.opened q with
  | none => exact absurd e h2
  | some p => exact ⟨h1, p.1, p.2, rfl, (v.wf.files _).mp (v.wf.opened q p.1 p.2 e).1⟩

/-- C159: as long as the program holds a `File`, it is the same file, open for the same access; and a name that
has been given stays with its file. -/
theorem C159_same_file {fs0 : WinFs} (wf : WinFsWf t fs0) (laid : WinLaid t fs0.win) {x x' : FsWorld}
    (h : FsReach tab t fs0 x) (l : FsLater tab t x x') :
    (∀ q, x.files q = true → x'.files q = true → x'.fs.opened q = x.fs.opened q) ∧
    ∀ p f, x.fs.names p = some f → x'.fs.names p = some f := by
  have v := h.inv wf laid
  have k := (l.next wf v).kept
  refine ⟨fun q h1 h2 => (k.files q ?_ h2).2, k.names⟩
  apply Decidable.byContradiction
  intro hc
  exact (v.mine q h1).2 (v.wf.unused (Nat.le_of_not_lt hc))

/-- C159 in full, at the end: once everything has been dropped, the process is as it was at the start.  False of the
code, because of empty maps: `C159_full_false`. -/
def C159_full : Prop :=
  ∀ (tab : SysTable) (t : Target) (fs0 : WinFs) (x : FsWorld), WinFsWf t fs0 → WinLaid t fs0.win → FsReach tab t fs0 x →
    (∀ i, x.held i = none) → (∀ q, x.files q = false) →
    x.fs.win.views.Perm fs0.win.views ∧ x.fs.opened = fs0.opened ∧ x.fs.win.handles = fs0.win.handles

/-- C159: once every map, ring and `File` has been dropped, and no map of length 0 was among them, the process is
as it was at the start: the same views, the same open files, the same handles. -/
theorem C159_all_dropped_partial {fs0 : WinFs} (wf : WinFsWf t fs0) (laid : WinLaid t fs0.win) {x : FsWorld}
    (h : FsReach tab t fs0 x) (maps : ∀ i, x.held i = none) (files : ∀ q, x.files q = false) (he : x.empties = []) :
    x.fs.win.views.Perm fs0.win.views ∧ x.fs.opened = fs0.opened ∧ x.fs.win.handles = fs0.win.handles := by
  have v := h.inv wf laid
  refine ⟨?_, funext fun q => v.rest q (files q), v.inv.keeps.handles⟩
  refine (List.perm_ext_iff_of_nodup (views_nodup v.inv.laid) (views_nodup laid)).mpr fun y => ⟨fun hy => ?_, v.inv.base y⟩
  rcases v.inv.all y hy with h1 | ⟨i, g, h1, -⟩ | ⟨m, hm, -⟩
  · exact h1
  · rw [show x.world.held i = x.held i from rfl, maps i] at h1; cases h1
  · rw [show x.world.empties = x.empties from rfl, he] at hm; cases hm

/-- C159: as long as a map or ring is held, it is the same memory, and every one of its addresses shows the same
byte of the same file or memory with the same access. -/
theorem C159_kept {fs0 : WinFs} (wf : WinFsWf t fs0) (laid : WinLaid t fs0.win) {x x' : FsWorld}
    (h : FsReach tab t fs0 x) (l : FsLater tab t x x') {i : Nat} {y z : WinHandle} (hy : x.held i = some y)
    (hz : x'.held i = some z) :
    WinHandle.Same y z ∧ ∀ a, WinHandle.Has y a →
      winSees x.fs.win a ≠ none ∧ winSees x'.fs.win a = winSees x.fs.win a := by
  have v := (h.inv wf laid).inv
  have n := l.next wf (h.inv wf laid)
  have v' := n.inv.inv
  have hi : i < x.next := by
    apply Decidable.byContradiction
    intro hc
    have : x.held i = none := v.next i (Nat.le_of_not_lt hc)
    rw [this] at hy
    cases hy
  rcases n.kept.kept.held i hi with h1 | ⟨y', z', h1, h2, h3, h4⟩
  · rw [show x'.world.held i = x'.held i from rfl, hz] at h1; cases h1
  · rw [show x.world.held i = x.held i from rfl, hy] at h1
    rw [show x'.world.held i = x'.held i from rfl, hz] at h2
    cases h1
    cases h2
    refine ⟨h3, fun a ha => ?_⟩
    obtain ⟨p, hp, op, p1, p2⟩ := has_view (v.there i y hy) ha
    have e1 : winSees x.fs.win a = _ := v.laid.sees hp ⟨p1, p2⟩
    have e2 : winSees x'.fs.win a = _ := v'.laid.sees (h4 p hp op) ⟨p1, p2⟩
    rw [e1, e2]
    exact ⟨nofun, rfl⟩

/-- Where `open_if` leads. -/
theorem openIf_later {x : FsWorld} {o : Options} (fits : Fits t o) {path : String} {fs' : WinFs} {m : Option MapMut} {q : Nat}
    (call : x.fs.openIf tab t o path = .ok (fs', .ok (m, q))) : FsLater tab t x ((x.got fs' m).file q) :=
  .step (op := .openIf o path) .refl fits (by simp only [FsWorld.step, call, bind, Except.bind]; rfl)

theorem FsLater.trans {a b c : FsWorld} (h : FsLater tab t a b) (g : FsLater tab t b c) : FsLater tab t a c := by
  induction g with
  | refl => exact h
  | step _ sane st ih => exact .step ih sane st

/-- C159: from when `open_if` returns a map until the map is dropped, its byte `i` is byte `offset + i` of the
file that the path names, then and later, with the access asked for; whether or not the `File` is
still held. -/
theorem C159_shows {fs0 : WinFs} (wf : WinFsWf t fs0) (laid : WinLaid t fs0.win) {x x' : FsWorld}
    (h : FsReach tab t fs0 x) {o : Options} (fits : Fits t o) {path : String} {fs' : WinFs} {m : MapMut} {q : Nat}
    (call : x.fs.openIf tab t o path = .ok (fs', .ok (some m, q))) (l : FsLater tab t ((x.got fs' (some m)).file q) x')
    {y : WinHandle} (hy : x'.held x.next = some y) :
    y = .map m ∧ ∃ f, fs'.names path = some f ∧ x'.fs.names path = some f ∧
      ∀ i, i < m.len → ∃ sec acc, winSees x'.fs.win (m.ptr + i) = some (sec, o.offset + i, acc) ∧
        sec.file = some f ∧ WinAllows o.protect acc := by
  have hr : FsReach tab t fs0 ((x.got fs' (some m)).file q) := FsLater.trans h (openIf_later fits call)
  have hm : ((x.got fs' (some m)).file q).held x.next = some (.map m) := by simp [FsWorld.got, FsWorld.file]
  obtain ⟨h1, h2⟩ := C159_kept wf laid hr l hm hy
  obtain ⟨fs2, r, g1, -, -, -, g2, -⟩ := C158_open_if tab (h.inv wf laid).wf fits path
  rw [call] at g1
  injection g1 with g1
  injection g1 with g1 g1'
  subst g1
  obtain ⟨f, len, -, name, -, -, -, -, -, -, g3⟩ := g2 _ _ g1'.symm
  obtain ⟨-, v, hv⟩ := g3 m rfl
  refine ⟨?_, f, name, (C159_same_file wf laid hr l).2 _ _ name, fun i hi => ⟨v.sec, v.access, ?_, hv.sec.2, hv.access⟩⟩
  · cases y <;> simp only [WinHandle.Same] at h1
    rw [h1]
  · rw [(h2 (m.ptr + i) ⟨by omega, by omega⟩).2]
    exact WinMap.sees (hr.inv wf laid).inv.laid hv hi

/-- C159: opening, mapping and closing files never panics, whatever the program did before. -/
theorem C159_no_panic {fs0 : WinFs} (wf : WinFsWf t fs0) (laid : WinLaid t fs0.win) {x : FsWorld}
    (h : FsReach tab t fs0 x) (o : Options) (fits : Fits t o) :
    (∀ path, ∃ x', x.step tab t (.openIf o path) = .ok x') ∧ (∀ q, ∃ x', x.step tab t (.mapIf o q) = .ok x') ∧
    ∀ q, ∃ x', x.step tab t (.close q) = .ok x' := by
  have v := h.inv wf laid
  refine ⟨fun path => ?_, fun q => ?_, fun q => ?_⟩
  · obtain ⟨fs', r, h1, -⟩ := C158_open_if tab v.wf fits path
    simp only [FsWorld.step, h1, bind, Except.bind]
    cases r with
    | ok y => exact ⟨_, rfl⟩
    | error e => exact ⟨_, rfl⟩
  · simp only [FsWorld.step]
    split
    · rename_i hq
      cases ho : x.fs.opened q with
      | none => exact absurd ho (v.mine q hq).2
      | some p =>
        obtain ⟨s', r, h1, -⟩ := mapIf_fs tab v.wf fits (f := p.1) (w := p.2) ho
        simp only [h1, bind, Except.bind]
        cases r with
        | ok y => exact ⟨_, rfl⟩
        | error e => exact ⟨_, rfl⟩
    · exact ⟨_, rfl⟩
  · simp only [FsWorld.step]
    split
    · exact ⟨_, rfl⟩
    · exact ⟨_, rfl⟩

/-- C159: as long as a non-empty map of a file is held, opening the file anew never truncates it: with `truncate`
the call fails, and no file changes. -/
theorem C159_not_truncated {fs0 : WinFs} (wf : WinFsWf t fs0) (laid : WinLaid t fs0.win) {x x' : FsWorld}
    (h : FsReach tab t fs0 x) {o : Options} (fits : Fits t o) {path : String} {fs' : WinFs} {m : MapMut} {q : Nat}
    (call : x.fs.openIf tab t o path = .ok (fs', .ok (some m, q))) (some_ : 0 < m.len)
    (l : FsLater tab t ((x.got fs' (some m)).file q) x') {y : WinHandle} (hy : x'.held x.next = some y)
    {o' : Options} (trunc : o'.openOptions.truncate = true) :
    ∃ fs2 e, x'.fs.openIf tab t o' path = .ok (fs2, .error e) ∧ WinFsSame x'.fs fs2 := by
  obtain ⟨-, f, -, name, sees⟩ := C159_shows wf laid h fits call l hy
  obtain ⟨sec, acc, h1, h2, -⟩ := sees 0 some_
  unfold winSees at h1
  cases e : x'.fs.win.views.find? (fun v => decide (v.base ≤ m.ptr + 0 ∧ m.ptr + 0 < v.base + v.len)) with
  | none => rw [e] at h1; cases h1
  | some v =>
    rw [e] at h1
    injection h1 with h1
    injection h1 with h1
    have hr := FsLater.trans (FsLater.trans h (openIf_later fits call)) l
    exact C158_mapped tab (FsReach.inv wf laid hr).wf name (List.mem_of_find?_eq_some e) (by rw [h1]; exact h2) trunc

/-- A program run to its end. -/
def FsWorld.all (tab : SysTable) (t : Target) (x : FsWorld) : List FsOp → Exec FsWorld
  | [] => .ok x
  | op :: ops => do (← x.step tab t op).all tab t ops

theorem fsAll_later : ∀ {ops : List FsOp} {x x' : FsWorld}, (∀ op, op ∈ ops → ∀ x, op.Sane t x) →
    x.all tab t ops = .ok x' → FsLater tab t x x' := by
  intro ops
  induction ops with
  | nil => intro x x' _ e; cases e; exact .refl
  | cons op ops ih =>
    intro x x' sane e
    simp only [FsWorld.all, bind, Except.bind] at e
    split at e
    · cases e
    · rename_i x1 h1
      exact FsLater.trans (.step .refl (sane op List.mem_cons_self x) h1)
        (ih (fun o ho => sane o (List.mem_cons_of_mem _ ho)) e)

/-- A state in numbers: the views, the first three maps, the files open through handles 3 and 4, and the
lengths of files 0 and 1. -/
def FsWorld.sum (x : FsWorld) : List (Nat × Option Nat) × List (Option Nat) × List (Option (Nat × Bool)) × List (Option Nat) :=
  (x.fs.win.views.map (fun v => (v.len, v.sec.file)),
    [0, 1, 2].map (fun i => (x.held i).map (fun h => match h with | .map m => m.len | .ring r => r.len | .inf r => r.len)),
    [3, 4].map x.fs.opened, [0, 1].map x.fs.win.files)

/-- The program of the example: open a file, create one of 50 bytes, map the first again, close it, try to truncate it. -/
def fsProg : List FsOp :=
  [.openIf Options.new "data", .openIf ((Options.newMut.create true).setResize (.exact 50)) "new",
    .mapIf (Options.new.setOffset 10) 3, .close 3, .openIf (Options.newMut.setTruncate true) "data"]

theorem fsProg_sane : ∀ op, op ∈ fsProg → ∀ x, op.Sane ⟨.w64, true⟩ x := by
  intro op h x
  simp only [fsProg, List.mem_cons, List.not_mem_nil, or_false] at h
  rcases h with rfl | rfl | rfl | rfl | rfl
  · exact ⟨trivial, trivial, show (0 : Nat) < _ by decide⟩
  · exact ⟨show (50 : Nat) < _ by decide, trivial, show (0 : Nat) < _ by decide⟩
  · exact ⟨trivial, trivial, show (10 : Nat) < _ by decide⟩
  · trivial
  · exact ⟨trivial, trivial, show (0 : Nat) < _ by decide⟩

theorem winDisk_laid (bad : List Nat) : WinLaid ⟨.w64, true⟩ (winDisk bad).win :=
  ⟨⟨12, 16, rfl, rfl, by decide, by decide⟩, fun _ h => (nomatch h), .nil⟩

/-- Non-vacuity: a program reaches a state with three maps of two files, one file open and one closed again. -/
example : WinFsWf ⟨.w64, true⟩ (winDisk []) ∧ WinLaid ⟨.w64, true⟩ (winDisk []).win ∧
    ∃ x, FsReach winTab ⟨.w64, true⟩ (winDisk []) x ∧ x.sum =
    ([(100, some 0), (50, some 1), (100, some 0)], [some 100, some 50, some 90], [none, some (1, true)], [some 100, some 50]) := by
  refine ⟨winDisk_wf [], winDisk_laid [], ?_⟩
  have h : ((FsWorld.start (winDisk [])).all winTab ⟨.w64, true⟩ fsProg).map FsWorld.sum = .ok
    ([(100, some 0), (50, some 1), (100, some 0)], [some 100, some 50, some 90], [none, some (1, true)], [some 100, some 50]) := rfl
  cases e : (FsWorld.start (winDisk [])).all winTab ⟨.w64, true⟩ fsProg with
  | error f => rw [e] at h; cases h
  | ok x =>
    rw [e] at h
    injection h with h
    exact ⟨x, fsAll_later fsProg_sane e, h⟩

/-- Non-vacuity: everything is dropped. -/
example : WinFsWf ⟨.w64, true⟩ (winDisk []) ∧ WinLaid ⟨.w64, true⟩ (winDisk []).win ∧
    ∃ x, FsReach winTab ⟨.w64, true⟩ (winDisk []) x ∧ x.next = 3 ∧ x.sum =
    ([], [none, none, none], [none, none], [some 100, some 50]) := by
  refine ⟨winDisk_wf [], winDisk_laid [], ?_⟩
  have h : ((FsWorld.start (winDisk [])).all winTab ⟨.w64, true⟩
      (fsProg ++ [.use (.drop 1), .use (.drop 0), .use (.drop 2), .close 4])).map (fun x => (x.next, x.sum)) = .ok
    (3, [], [none, none, none], [none, none], [some 100, some 50]) := rfl
  cases e : (FsWorld.start (winDisk [])).all winTab ⟨.w64, true⟩
      (fsProg ++ [.use (.drop 1), .use (.drop 0), .use (.drop 2), .close 4]) with
  | error f => rw [e] at h; cases h
  | ok x =>
    rw [e] at h
    injection h with h
    injection h with h1 h2
    refine ⟨x, fsAll_later (fun op ho y => ?_) e, h1, h2⟩
    rcases List.mem_append.mp ho with ho | ho
    · exact fsProg_sane op ho y
    · simp only [List.mem_cons, List.not_mem_nil, or_false] at ho
      rcases ho with rfl | rfl | rfl | rfl <;> trivial

/-- C159: the first 0 bytes of a file are mapped; the map is dropped and the file closed; the view remains. -/
theorem C159_full_false : ¬ C159_full := by
  intro h
  have hs : ((FsWorld.start (winDisk [])).all winTab ⟨.w64, true⟩
      [.openIf (Options.new.setLen (.exact 0)) "data", .use (.drop 0), .close 3]).map (fun x => (x.next, x.sum)) = .ok
    (1, [(100, some 0)], [none, none, none], [none, none], [some 100, none]) := rfl
  cases e : (FsWorld.start (winDisk [])).all winTab ⟨.w64, true⟩
      [.openIf (Options.new.setLen (.exact 0)) "data", .use (.drop 0), .close 3] with
  | error f => rw [e] at hs; cases hs
  | ok x =>
    rw [e] at hs
    injection hs with hs
    injection hs with h1 h2
    have hr : FsReach winTab ⟨.w64, true⟩ (winDisk []) x := by
      refine fsAll_later (fun op ho y => ?_) e
      simp only [List.mem_cons, List.not_mem_nil, or_false] at ho
      rcases ho with rfl | rfl | rfl
      · exact ⟨trivial, show (0 : Nat) < _ by decide, show (0 : Nat) < _ by decide⟩
      · trivial
      · trivial
    have v := FsReach.inv (winDisk_wf []) (winDisk_laid []) hr
    simp only [FsWorld.sum, List.map_cons, List.map_nil, Prod.mk.injEq, List.cons.injEq, and_true] at h2
    have hheld : ∀ i, x.held i = none := by
      intro i
      by_cases hi : i = 0
      · subst hi
        cases hc : x.held 0 with
        | none => rfl
        | some y => rw [hc] at h2; cases h2.2.1.1
      · exact v.inv.next i (by show x.next ≤ i; omega)
    have hfiles : ∀ q, x.files q = false := by
      intro q
      cases hq : x.files q with
      | false => rfl
      | true =>
        exfalso
        have hlt : q < x.fs.nextHandle := by
          apply Decidable.byContradiction
          intro hc
          exact (v.mine q hq).2 (v.wf.unused (Nat.le_of_not_lt hc))
        have hn : x.fs.nextHandle = 4 := by
          have : ((FsWorld.start (winDisk [])).all winTab ⟨.w64, true⟩
            [.openIf (Options.new.setLen (.exact 0)) "data", .use (.drop 0), .close 3]).map (fun x => x.fs.nextHandle) = .ok 4 := rfl
          rw [e] at this
          injection this
        have hf : ((FsWorld.start (winDisk [])).all winTab ⟨.w64, true⟩
            [.openIf (Options.new.setLen (.exact 0)) "data", .use (.drop 0), .close 3]).map (fun x => [0, 1, 2, 3].map x.files) =
            .ok [false, false, false, false] := rfl
        rw [e] at hf
        injection hf with hf
        simp only [List.map_cons, List.map_nil, List.cons.injEq, and_true] at hf
        obtain ⟨f0, f1, f2, f3⟩ := hf
        have : q = 0 ∨ q = 1 ∨ q = 2 ∨ q = 3 := by omega
        rcases this with rfl | rfl | rfl | rfl
        · rw [f0] at hq; cases hq
        · rw [f1] at hq; cases hq
        · rw [f2] at hq; cases hq
        · rw [f3] at hq; cases hq
    have := (h _ _ _ x (winDisk_wf []) (winDisk_laid []) hr hheld hfiles).1.length_eq
    have hl : x.fs.win.views.length = 1 := by
      have h3 := congrArg List.length h2.1
      simpa using h3
    rw [hl] at this
    cases this

end Vmap
