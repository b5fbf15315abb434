import Verif.Spec.WinDisk
import Verif.Proofs.WinFile
/-
Whole programs on Windows that open files (C159), lemmas.
-/
namespace Vmap
open Spec

variable {tab : SysTable} {t : Target}

/-- No call but `map_if` makes a view of a file, or changes which files there are. -/
theorem win_step_nofile {s0 : Vmap.Win} {w w' : WinWorld} (inv : WinInv t s0 w) {op : WinOp} (sane : op.Sane t w)
    (h : w.step tab t op = .ok w') (h1 : ∀ o f, op ≠ .mapIf o f) (h2 : ∀ f d, op ≠ .files f d) :
    w'.s.files = w.s.files ∧ ∀ v, v ∈ w'.s.views → v ∈ w.s.views ∨ v.sec.file = none := by
  have still : WinStill w.s w'.s ∧ w' = w.run w'.s →
      w'.s.files = w.s.files ∧ ∀ v, v ∈ w'.s.views → v ∈ w.s.views ∨ v.sec.file = none :=
    fun q => ⟨q.1.files, fun v hv => .inl (by rw [← q.1.quiet.views]; exact hv)⟩
  have ring : ∀ {hint len : Nat} {s' : Vmap.Win} {r : Result Nat}, 2 * (hint + w.s.gran) < t.lim →
      w.s.sizeAlloc.round t hint = .ok len → w.s.mapRing t len = .ok (s', r) →
      s'.files = w.s.files ∧ ∀ v, v ∈ s'.views → v ∈ w.s.views ∨ v.sec.file = none := by
    intro hint len s' r hh hr hm
    refine ⟨(win_mapRing_rest inv hh hr hm).files, fun v hv => ?_⟩
    obtain ⟨hdvd, hfit⟩ := win_ring_fits inv hh hr
    by_cases hl : 0 < len
    · obtain ⟨s2, r2, g1, -, -, -, g4, g5⟩ := C31_map_ring t inv.wf hl hfit
      rw [hm] at g1
      cases g1
      cases r with
      | error e => rw [(g5 e rfl).1] at hv; exact .inl hv
      | ok pg =>
        obtain ⟨v1, v2, e, -, -, -, -, -, -, -, -, e1, e2⟩ := (g4 pg rfl).1.access
        rw [e] at hv
        simp only [List.mem_cons] at hv
        rcases hv with rfl | rfl | hv
        · rw [← e1]; exact .inr e2
        · exact .inr e2
        · exact .inl hv
    · obtain ⟨s2, r2, g1, -, -, g4, g5, -⟩ := win_mapRing_any inv.wf inv.laid hdvd hfit
      rw [hm] at g1
      cases g1
      cases r with
      | error e => rw [g5 e rfl] at hv; exact .inl hv
      | ok pg =>
        obtain ⟨-, -, -, -, -, -, -, -, h0, -⟩ := g4 pg rfl
        exact absurd h0 hl
  cases op with
  | mapIf o f => exact absurd rfl (h1 o f)
  | files f d => exact absurd rfl (h2 f d)
  | alloc o =>
    simp only [WinWorld.step, bind, Except.bind] at h
    split at h
    · cases h
    rename_i x hx
    obtain ⟨s', r⟩ := x
    obtain ⟨s2, r2, g1, g2, g3, g4, g6⟩ := C81_alloc_partial t inv.wf sane
    rw [hx] at g1
    cases g1
    cases r with
    | ok m =>
      cases h
      refine ⟨g2.files, fun v hv => ?_⟩
      obtain ⟨-, -, ⟨u, mu⟩, -⟩ := g4 m rfl
      have hv : v ∈ s'.views := hv
      rw [mu.views] at hv
      rcases List.mem_cons.mp hv with rfl | hv
      · exact .inr mu.sec.2
      · exact .inl hv
    | error e =>
      cases h
      refine ⟨g2.files, fun v hv => ?_⟩
      have hv : v ∈ s'.views := hv
      rw [(g6 e rfl).1] at hv
      exact .inl hv
  | newRing hint =>
    simp only [WinWorld.step, bind, Except.bind, Win.ringNew] at h
    split at h
    · cases h
    rename_i x hx
    split at hx
    · cases hx
    rename_i len hlen
    split at hx
    · cases hx
    rename_i y hy
    obtain ⟨s', r⟩ := y
    have g := ring sane hlen hy
    cases r <;> (cases hx; cases h; exact g)
  | newInf hint =>
    simp only [WinWorld.step, bind, Except.bind, Win.infNew] at h
    split at h
    · cases h
    rename_i x hx
    split at hx
    · cases hx
    rename_i len hlen
    split at hx
    · cases hx
    rename_i y hy
    obtain ⟨s', r⟩ := y
    have g := ring sane hlen hy
    cases r <;> (cases hx; cases h; exact g)
  | drop i =>
    have hf : w'.s.files = w.s.files := by
      obtain ⟨-, h | h⟩ := win_step_calm inv sane h (fun _ _ _ => nofun) (fun _ _ _ _ => nofun) (fun _ _ _ _ => nofun)
        (fun _ _ => nofun)
      · obtain ⟨_, _, h⟩ := h; cases h
      · exact h.1
    refine ⟨hf, fun v hv => .inl ?_⟩
    simp only [WinWorld.step] at h
    split at h
    · rename_i m hm
      simp only [bind, Except.bind] at h
      split at h
      · cases h
      · rename_i s' hs
        cases h
        have hv : v ∈ s'.views := hv
        by_cases h0 : m.len = 0
        · simp only [Win.dropMap, h0, Nat.lt_irrefl, gt_iff_lt, if_false, pure, Except.pure] at hs
          cases hs
          exact hv
        · obtain ⟨u, hu, mv⟩ := inv.there i _ hm
          rw [← inv.keeps.gran] at mv
          obtain ⟨s1, k0, -, -, k3, -⟩ := win_dropMap_view inv.wf inv.laid (Nat.pos_of_ne_zero h0) hu mv
          rw [hs] at k0
          cases k0
          rw [k3] at hv
          exact (List.mem_filter.mp hv).1
    · rename_i r hr
      cases h
      obtain ⟨v1, v2, a1, a2, a3, a4, a5, a6, a7, -⟩ := inv.there i _ hr
      obtain ⟨-, -, k, -⟩ := win_unmapRing_views inv.wf inv.laid a7 a1 a2 a3 a4 a6
      have hv : v ∈ (w.s.unmapRing t r.ptr r.len).1.views := hv
      rw [k] at hv
      exact (List.mem_filter.mp (List.mem_filter.mp hv).1).1
    · rename_i r hr
      cases h
      obtain ⟨v1, v2, a1, a2, a3, a4, a5, a6, a7, -⟩ := inv.there i _ hr
      obtain ⟨-, -, k, -⟩ := win_unmapRing_views inv.wf inv.laid a7 a1 a2 a3 a4 a6
      have hv : v ∈ (w.s.unmapRing t r.ptr r.len).1.views := hv
      rw [k] at hv
      exact (List.mem_filter.mp (List.mem_filter.mp hv).1).1
    · cases h; exact hv
  | flush i file off len mode =>
    exact still (win_onMap_still (fun m s r hf => win_range_still (fun a b => WinStill.flush w.s a file b mode) hf) h)
  | advise i off len adv =>
    exact still (win_onMap_still (fun m s r hf => win_range_still (g := fun a b => w.s.advise a b adv)
      (fun a b => WinStill.refl w.s) hf) h)
  | lock i off len =>
    exact still (win_onMap_still (fun m s r hf => win_range_still (fun a b => WinStill.lock w.s a b) hf) h)
  | unlock i off len =>
    exact still (win_onMap_still (fun m s r hf => win_range_still (fun a b => WinStill.unlock w.s a b) hf) h)
  | intoMapMut i => exact still (win_onMap_still (fun m s r hf => win_intoMapMut_still hf) h)
  | intoMap i => exact still (win_onMap_still (fun m s r hf => win_intoMap_still hf) h)
  | ringUse i rpos wpos mem =>
    simp only [WinWorld.step] at h
    split at h
    · rename_i r hr
      cases h
      obtain ⟨b, hb⟩ := win_fill_bare w.s r.ptr mem
      refine ⟨win_fill_files _ _ _, fun v hv => .inl ?_⟩
      have hv : v ∈ (WinWorld.fill w.s r.ptr mem).views := hv
      rw [hb] at hv
      exact hv
    · cases h; exact ⟨rfl, fun _ h => .inl h⟩
  | infUse i rlen wpos mem =>
    simp only [WinWorld.step] at h
    split at h
    · rename_i r hr
      cases h
      obtain ⟨b, hb⟩ := win_fill_bare w.s r.ptr mem
      refine ⟨win_fill_files _ _ _, fun v hv => .inl ?_⟩
      have hv : v ∈ (WinWorld.fill w.s r.ptr mem).views := hv
      rw [hb] at hv
      exact hv
    · cases h; exact ⟨rfl, fun _ h => .inl h⟩
  | set i idx b =>
    refine ⟨win_set_files h, fun v hv => .inl ?_⟩
    simp only [WinWorld.step] at h
    split at h
    · rename_i m hm
      simp only [bind, Except.bind] at h
      split at h
      · cases h
      · rename_i s' hs
        cases h
        unfold Win.set at hs
        split at hs
        · obtain ⟨b, hb⟩ := win_store_bare hs
          have hv : v ∈ s'.views := hv
          rw [hb] at hv
          exact hv
        · cases hs
    · cases h; exact hv

/-- What holds in every state a program can reach. -/
structure FsInv (t : Target) (fs0 : WinFs) (x : FsWorld) : Prop where
  inv : WinInv t fs0.win x.world
  wf : WinFsWf t x.fs
  mine : ∀ h, x.files h = true → fs0.opened h = none ∧ x.fs.opened h ≠ none
  rest : ∀ h, x.files h = false → x.fs.opened h = fs0.opened h
  names : ∀ p f, fs0.names p = some f → x.fs.names p = some f
  handles : fs0.nextHandle ≤ x.fs.nextHandle

/-- What a step keeps. -/
structure FsKept (u : Nat) (x x' : FsWorld) : Prop where
  kept : WinKept u x.world x'.world
  names : ∀ p f, x.fs.names p = some f → x'.fs.names p = some f
  next : x.fs.nextHandle ≤ x'.fs.nextHandle
  files : ∀ h, h < x.fs.nextHandle → x'.files h = true → x.files h = true ∧ x'.fs.opened h = x.fs.opened h

theorem FsKept.refl (u : Nat) (x : FsWorld) : FsKept u x x :=
  ⟨.refl _ _, fun _ _ h => h, Nat.le_refl _, fun _ _ h => ⟨h, rfl⟩⟩

theorem FsKept.trans {u : Nat} {a b c : FsWorld} (h : FsKept u a b) (g : FsKept u b c) : FsKept u a c := by
  refine ⟨h.kept.trans g.kept, fun p f k => g.names p f (h.names p f k), Nat.le_trans h.next g.next, fun q hq k => ?_⟩
  obtain ⟨k1, k2⟩ := g.files q (Nat.lt_of_lt_of_le hq h.next) k
  obtain ⟨k3, k4⟩ := h.files q hq k1
  exact ⟨k3, k2.trans k4⟩

/-- `map_if` through a handle, for the invariant. -/
theorem mapIfAs_next {s0 : Vmap.Win} {w : WinWorld} (inv : WinInv t s0 w) {o : Options} (hf : Fits t o) {wr : Bool}
    {file : Nat} {s' : Vmap.Win} {r : Result (Option MapMut)} (h : w.s.mapIfAs tab t wr o file = .ok (s', r)) :
    (∀ m, r = .ok (some m) → WinNext t s0 w (w.put s' (.map m))) ∧
    ((∀ m, r ≠ .ok (some m)) → WinNext t s0 w (w.run s')) := by
  rcases mapIfAs_out tab inv.wf hf wr file with ⟨h1, -⟩ | ⟨-, s1, e, h1, den, -⟩
  · rw [h1] at h
    exact win_mapIf_inv inv hf file h
  · rw [h1] at h
    cases h
    exact ⟨(fun m hm => by cases hm), fun _ => inv.quiet den.quiet⟩

theorem got_world (x : FsWorld) (fs : WinFs) (m : Option MapMut) : (x.got fs m).world =
    match m with | some m => x.world.put fs.win (.map m) | none => x.world.run fs.win := by
  cases m <;> rfl

theorem got_files (x : FsWorld) (fs : WinFs) (m : Option MapMut) : (x.got fs m).files = x.files ∧ (x.got fs m).fs = fs := by
  cases m <;> exact ⟨rfl, rfl⟩

/-- `map_if` with an open file. -/
theorem mapIf_got {fs0 : WinFs} {x : FsWorld} (inv : WinInv t fs0.win x.world) (wf : WinFsWf t x.fs) {o : Options}
    (fits : Fits t o) {h f : Nat} {wr : Bool} (hh : x.fs.opened h = some (f, wr)) {fs' : WinFs}
    {r : Result (Option MapMut)} (call : x.fs.mapIf tab t o h = .ok (fs', r)) :
    WinFsWf t fs' ∧ (∃ s', fs' = { x.fs with win := s' }) ∧
    (∀ m, r = .ok m → WinNext t fs0.win x.world (x.got fs' m).world) ∧
    (∀ e, r = .error e → WinNext t fs0.win x.world (x.run fs').world) := by
  obtain ⟨s', r', h1, -, wf'⟩ := mapIf_fs tab wf fits hh
  rw [call] at h1
  cases h1
  have hm : x.fs.win.mapIfAs tab t wr o f = .ok (s', r) := by
    simp only [WinFs.mapIf, hh, bind, Except.bind] at call
    split at call
    · cases call
    · rename_i y hy
      rw [hy]
      injection call with call
      injection call with c1 c2
      injection c1 with c1
      rw [← c1, ← c2]
  obtain ⟨g1, g2⟩ := mapIfAs_next (w := x.world) inv fits hm
  refine ⟨wf', ⟨s', rfl⟩, fun m hr => ?_, fun e hr => ?_⟩
  · cases m with
    | some m => exact g1 m hr
    | none => exact g2 fun m hc => by rw [hr] at hc; cases hc
  · exact g2 fun m hc => by rw [hr] at hc; cases hc

theorem openFile_next (tab : SysTable) {fs : WinFs} (wf : WinFsWf t fs) (o : OpenOptions) (path : String) :
    (∃ fs1 code, fs.openFile tab o path = (fs1, .error (SysError.toIo tab (.os code))) ∧ WinFsSame fs fs1 ∧
      WinFsWf t fs1 ∧ fs1.nextHandle = fs.nextHandle) ∨
    ∃ fs1 f l, fs.openFile tab o path = (fs1, .ok fs.nextHandle) ∧ Opening t fs fs1 o path f l ∧
      fs1.nextHandle = fs.nextHandle + 1 := by
  have key : match (fs.openFile tab o path).2 with
      | .ok _ => (fs.openFile tab o path).1.nextHandle = fs.nextHandle + 1
      | .error _ => (fs.openFile tab o path).1.nextHandle = fs.nextHandle := by
    unfold WinFs.openFile
    cases o.creation with
    | none => rfl
    | some mode =>
      unfold WinFs.createFile
      dsimp only
      by_cases hc : fs.choice.ok = true
      · simp only [if_pos hc]
        cases hn : fs.names path with
        | some f =>
          cases mode with
          | createNew => rfl
          | openExisting => rfl
          | openAlways => rfl
          | createAlways => dsimp only; by_cases hv : WinFs.viewed { fs with asked := (path, o.write, .createAlways) :: fs.asked } f = true <;> (simp only [hv]; rfl)
          | truncateExisting => dsimp only; by_cases hv : WinFs.viewed { fs with asked := (path, o.write, .truncateExisting) :: fs.asked } f = true <;> (simp only [hv]; rfl)
        | none => cases mode <;> rfl
      · simp only [if_neg hc]; rfl
  rcases openFile_out tab wf o path with ⟨fs1, code, h1, h2, h3⟩ | ⟨fs1, f, l, h1, h2⟩
  · rw [h1] at key
    exact .inl ⟨fs1, code, h1, h2, h3, key⟩
  · rw [h1] at key
    exact .inr ⟨fs1, f, l, h1, h2, key⟩

theorem openIf_call {fs fs' : WinFs} {o : Options} {path : String} {r : Result (Option MapMut × Nat)}
    (call : fs.openIf tab t o path = .ok (fs', r)) (wf : WinFsWf t fs) :
    (∃ e, r = .error e ∧ WinFsSame fs fs' ∧ WinFsWf t fs' ∧ fs'.nextHandle = fs.nextHandle) ∨
    ∃ fs1 f l r1 fs2, Opening t fs fs1 o.openOptions path f l ∧ fs1.nextHandle = fs.nextHandle + 1 ∧
      fs1.mapIf tab t o fs.nextHandle = .ok (fs2, r1) ∧
      ((∃ e, r1 = .error e ∧ r = .error e ∧ fs' = fs2.close fs.nextHandle) ∨
        ∃ m, r1 = .ok m ∧ r = .ok (m, fs.nextHandle) ∧ fs' = fs2) := by
  rcases openFile_next tab wf o.openOptions path with ⟨fs1, code, h1, same, wf1, hn⟩ | ⟨fs1, f, l, h1, op, hn⟩
  · simp only [WinFs.openIf, h1, pure, Except.pure] at call
    cases call
    exact .inl ⟨_, rfl, same, wf1, hn⟩
  · right
    simp only [WinFs.openIf, h1, bind, Except.bind] at call
    split at call
    · cases call
    · rename_i y hy
      obtain ⟨fs2, r1⟩ := y
      refine ⟨fs1, f, l, r1, fs2, op, hn, hy, ?_⟩
      cases r1 with
      | error e => cases call; exact .inl ⟨e, rfl, rfl, rfl⟩
      | ok m => cases call; exact .inr ⟨m, rfl, rfl, rfl⟩

theorem Spec.WinFsWf.close {fs : WinFs} (wf : WinFsWf t fs) (h : Nat) : WinFsWf t (fs.close h) := by
  refine ⟨wf.win, wf.names, wf.files, wf.once, fun q g w hq => ?_, wf.views⟩
  simp only [WinFs.close] at hq
  split at hq
  · cases hq
  · exact wf.opened q g w hq

theorem Spec.WinFsWf.unused {fs : WinFs} (wf : WinFsWf t fs) {h : Nat} (hh : fs.nextHandle ≤ h) : fs.opened h = none := by
  cases e : fs.opened h with
  | none => rfl
  | some x => exact absurd (wf.opened _ x.1 x.2 e).2 (by omega)

/-- A name that is there before a file is opened is there afterwards. -/
theorem Opening.kept {fs fs1 : WinFs} {o : OpenOptions} {path : String} {f l : Nat} (op : Opening t fs fs1 o path f l)
    {p : String} {g : Nat} (h : fs.names p = some g) : fs1.names p = some g := by
  by_cases hp : p = path
  · subst hp
    cases op.found with
    | there name => rw [op.name, ← h, name]
    | new name => rw [name] at h; cases h
  · rw [op.others.names p hp, h]

/-- The invariant holds after the step too, and the step keeps what is held. -/
structure FsNext (t : Target) (fs0 : WinFs) (x x' : FsWorld) : Prop where
  inv : FsInv t fs0 x'
  kept : FsKept fs0.win.gran x x'

/-- A step that leaves the `File`s alone. -/
theorem FsInv.same {fs0 : WinFs} {x x' : FsWorld} (i : FsInv t fs0 x) (n : WinNext t fs0.win x.world x'.world)
    (wf : WinFsWf t x'.fs) (hf : x'.files = x.files) (ho : x'.fs.opened = x.fs.opened) (hn : x'.fs.names = x.fs.names)
    (hh : x'.fs.nextHandle = x.fs.nextHandle) : FsNext t fs0 x x' :=
  ⟨⟨n.inv, wf, by rw [hf, ho]; exact i.mine, by rw [hf, ho]; exact i.rest, by rw [hn]; exact i.names, by rw [hh]; exact i.handles⟩,
    ⟨n.kept, fun p f h => by rw [hn]; exact h, Nat.le_of_eq hh.symm, fun h _ k => ⟨by rw [← hf]; exact k, by rw [ho]⟩⟩⟩

/-- `open_if` keeps the invariant. -/
theorem FsInv.openIf {fs0 : WinFs} (wf0 : WinFsWf t fs0) {x : FsWorld} (i : FsInv t fs0 x) {o : Options} (fits : Fits t o)
    {path : String} {fs' : WinFs} {r : Result (Option MapMut × Nat)} (call : x.fs.openIf tab t o path = .ok (fs', r)) :
    FsNext t fs0 x (match (generalizing := false) r with | .ok (m, h) => (x.got fs' m).file h | .error _ => x.run fs') := by
  rcases openIf_call call i.wf with ⟨e, rfl, same, wf', hn⟩ | ⟨fs1, f, l, r1, fs2, op, hn, call2, out⟩
  · refine i.same (x' := x.run fs') ?_ wf' rfl same.opened same.names hn
    have h : (x.run fs').world = x.world := by simp only [FsWorld.world, FsWorld.run, same.win]
    rw [h]
    exact ⟨i.inv, .refl _ _⟩
  · have hh : fs1.opened x.fs.nextHandle = some (f, o.openOptions.write) := by rw [op.opened]; exact if_pos rfl
    have n1 : WinNext t fs0.win x.world (x.run fs1).world := i.inv.quiet op.quiet
    obtain ⟨wf2, ⟨s', rfl⟩, g1, g2⟩ := mapIf_got (x := x.run fs1) n1.inv op.wf fits hh call2
    have hnew := i.wf.unused (Nat.le_refl _)
    have hmine : x.files x.fs.nextHandle = false := by
      cases hc : x.files x.fs.nextHandle with
      | false => rfl
      | true => exact absurd hnew (i.mine _ hc).2
    have hold : ∀ q, q < x.fs.nextHandle → fs1.opened q = x.fs.opened q := by
      intro q hq
      rw [op.opened]
      exact if_neg (Nat.ne_of_lt hq)
    rcases out with ⟨e, rfl, rfl, rfl⟩ | ⟨m, rfl, rfl, rfl⟩
    · have n2 := g2 e rfl
      have ho : (WinFs.close { fs1 with win := s' } x.fs.nextHandle).opened = x.fs.opened := by
        funext q
        simp only [WinFs.close, op.opened]
        by_cases hq : q = x.fs.nextHandle
        · rw [if_pos hq, hq, hnew]
        · rw [if_neg hq, if_neg hq]
      refine ⟨⟨n2.inv, wf2.close _, fun h hm => ?_, fun h hm => ?_, fun p g hp => op.kept (i.names p g hp), ?_⟩,
        ⟨n1.kept.trans n2.kept, fun p g hp => op.kept hp, ?_, fun h hq hm => ⟨hm, ?_⟩⟩⟩
      · exact ⟨(i.mine h hm).1, fun hc => (i.mine h hm).2 ((congrFun ho h).symm.trans hc)⟩
      · exact (congrFun ho h).trans (i.rest h hm)
      · show fs0.nextHandle ≤ fs1.nextHandle
        have := i.handles
        omega
      · show x.fs.nextHandle ≤ fs1.nextHandle
        omega
      · exact congrFun ho h
    · have n2 := g1 m rfl
      have hw : ((x.got { fs1 with win := s' } m).file x.fs.nextHandle).world = ((x.run fs1).got { fs1 with win := s' } m).world := by
        cases m <;> rfl
      have hfs : ((x.got { fs1 with win := s' } m).file x.fs.nextHandle).fs = { fs1 with win := s' } := by cases m <;> rfl
      have hfl : ((x.got { fs1 with win := s' } m).file x.fs.nextHandle).files =
          fun q => if q = x.fs.nextHandle then true else x.files q := by cases m <;> rfl
      show FsNext t fs0 x ((x.got { fs1 with win := s' } m).file x.fs.nextHandle)
      refine ⟨⟨by rw [hw]; exact n2.inv, by rw [hfs]; exact wf2, fun h hm => ?_, fun h hm => ?_,
        fun p g hp => by rw [hfs]; exact op.kept (i.names p g hp), ?_⟩,
        ⟨by rw [hw]; exact n1.kept.trans n2.kept, fun p g hp => by rw [hfs]; exact op.kept hp, ?_, fun h hq hm => ?_⟩⟩
      · rw [hfl] at hm
        rw [hfs]
        by_cases hq : h = x.fs.nextHandle
        · subst hq
          refine ⟨wf0.unused i.handles, ?_⟩
          show fs1.opened _ ≠ none
          rw [hh]; exact nofun
        · simp only [if_neg hq] at hm
          refine ⟨(i.mine h hm).1, ?_⟩
          show fs1.opened _ ≠ none
          rw [op.opened]
          simp only [if_neg hq]
          exact (i.mine h hm).2
      · rw [hfl] at hm
        rw [hfs]
        by_cases hq : h = x.fs.nextHandle
        · simp only [if_pos hq] at hm; cases hm
        · simp only [if_neg hq] at hm
          show fs1.opened _ = _
          rw [op.opened]
          simp only [if_neg hq]
          exact i.rest h hm
      · rw [hfs]
        show fs0.nextHandle ≤ fs1.nextHandle
        have := i.handles
        omega
      · rw [hfs]
        show x.fs.nextHandle ≤ fs1.nextHandle
        omega
      · rw [hfl] at hm
        rw [hfs]
        simp only [if_neg (Nat.ne_of_lt hq)] at hm
        exact ⟨hm, hold h hq⟩

/-- A step that leaves which files there are, and makes no view of a file. -/
theorem Spec.WinFsWf.steps {fs : WinFs} (wf : WinFsWf t fs) {s : Vmap.Win} (ws : WinWf t s)
    (hf : ∀ f, (∃ n, s.files f = some n) ↔ ∃ n, fs.win.files f = some n)
    (hv : ∀ v, v ∈ s.views → v ∈ fs.win.views ∨ v.sec.file = none) : WinFsWf t { fs with win := s } := by
  refine ⟨ws, wf.names, fun f => (wf.files f).trans (hf f).symm, wf.once, wf.opened, fun v h f e => ?_⟩
  rcases hv v h with h | h
  · exact wf.views v h f e
  · rw [h] at e; cases e

theorem FsInv.step {fs0 : WinFs} (wf0 : WinFsWf t fs0) {x x' : FsWorld} (i : FsInv t fs0 x) {op : FsOp}
    (sane : op.Sane t x) (h : x.step tab t op = .ok x') : FsNext t fs0 x x' := by
  cases op with
  | openIf o path =>
    simp only [FsWorld.step, bind, Except.bind] at h
    split at h
    · cases h
    · rename_i y hy
      obtain ⟨fs', r⟩ := y
      have g := i.openIf wf0 sane hy
      cases r with
      | ok y => cases h; exact g
      | error e => cases h; exact g
  | mapIf o q =>
    simp only [FsWorld.step, bind, Except.bind] at h
    split at h
    · rename_i hq
      split at h
      · cases h
      · rename_i y hy
        obtain ⟨fs', r⟩ := y
        cases ho : x.fs.opened q with
        | none => exact absurd ho (i.mine q hq).2
        | some p =>
          obtain ⟨f, w⟩ := p
          obtain ⟨wf', ⟨s', rfl⟩, g1, g2⟩ := mapIf_got i.inv i.wf sane ho hy
          cases r with
          | ok m =>
            cases h
            have k := got_files x { x.fs with win := s' } m
            exact i.same (g1 m rfl) (by rw [k.2]; exact wf') k.1 (by rw [k.2]) (by rw [k.2]) (by rw [k.2])
          | error e => cases h; exact i.same (g2 e rfl) wf' rfl rfl rfl rfl
    · cases h
      exact ⟨i, .refl _ _⟩
  | close q =>
    simp only [FsWorld.step] at h
    split at h
    · rename_i hq
      cases h
      refine ⟨⟨i.inv, i.wf.close q, fun h hm => ?_, fun h hm => ?_, i.names, i.handles⟩,
        ⟨.refl _ _, fun _ _ h => h, Nat.le_refl _, fun h _ hm => ?_⟩⟩
      · by_cases e : h = q
        · simp only [if_pos e] at hm; cases hm
        · simp only [if_neg e] at hm
          simp only [WinFs.close, if_neg e]
          exact i.mine h hm
      · by_cases e : h = q
        · simp only [WinFs.close, if_pos e]
          rw [e]
          exact (i.mine q hq).1.symm
        · simp only [if_neg e] at hm
          simp only [WinFs.close, if_neg e]
          exact i.rest h hm
      · by_cases e : h = q
        · simp only [if_pos e] at hm; cases hm
        · simp only [if_neg e] at hm
          simp only [WinFs.close, if_neg e]
          exact ⟨hm, trivial⟩
    · cases h
      exact ⟨i, .refl _ _⟩
  | use op =>
    have none : x' = x → FsNext t fs0 x x' := fun h => by subst h; exact ⟨i, .refl _ _⟩
    by_cases h1 : ∃ o f, op = .mapIf o f
    · obtain ⟨o, f, rfl⟩ := h1
      cases h; exact none rfl
    by_cases h2 : ∃ f d, op = .files f d
    · obtain ⟨f, d, rfl⟩ := h2
      cases h; exact none rfl
    have hs : x.step tab t (.use op) = (do let w ← x.world.step tab t op; return x.back w) := by
      cases op <;> first | rfl | exact absurd ⟨_, _, rfl⟩ h1 | exact absurd ⟨_, _, rfl⟩ h2
    rw [hs] at h
    simp only [bind, Except.bind] at h
    split at h
    · cases h
    · rename_i w hw
      cases h
      obtain ⟨k1, k2⟩ := win_step_nofile i.inv sane hw (fun o f e => h1 ⟨o, f, e⟩) (fun f d e => h2 ⟨f, d, e⟩)
      have n := i.inv.step sane hw
      exact i.same (x' := x.back w) n (i.wf.steps n.inv.wf (fun f => by rw [k1]; exact Iff.rfl) k2) rfl rfl rfl rfl
  | others lens d =>
    cases h
    have n : WinNext t fs0.win x.world { x.world with s := { x.fs.win with files := lens, bytes := { x.fs.win.bytes with file := d } } } :=
      i.inv.step (tab := tab) (op := .files lens d) trivial rfl
    exact i.same n (i.wf.steps n.inv.wf sane fun v h => .inl h) rfl rfl rfl rfl

theorem FsInv.start {fs : WinFs} (wf : WinFsWf t fs) (laid : WinLaid t fs.win) : FsInv t fs (FsWorld.start fs) :=
  ⟨WinInv.start wf.win laid, wf, (fun _ h => nomatch h), fun _ _ => rfl, fun _ _ h => h, Nat.le_refl _⟩

theorem FsLater.next {fs0 : WinFs} (wf0 : WinFsWf t fs0) {x x' : FsWorld} (i : FsInv t fs0 x) (l : FsLater tab t x x') :
    FsNext t fs0 x x' := by
  induction l with
  | refl => exact ⟨i, .refl _ _⟩
  | step before sane st ih =>
    have n := ih.inv.step wf0 sane st
    exact ⟨n.inv, ih.kept.trans n.kept⟩

theorem FsReach.inv {fs0 : WinFs} (wf : WinFsWf t fs0) (laid : WinLaid t fs0.win) {x : FsWorld} (h : FsReach tab t fs0 x) :
    FsInv t fs0 x := (FsLater.next wf (.start wf laid) h).inv

end Vmap
