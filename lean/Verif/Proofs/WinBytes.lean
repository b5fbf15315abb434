import Verif.Spec.WinBytes
import Verif.Props.WinWorld
/- Helper lemmas about the bytes of maps on Windows. -/
namespace Vmap
open Spec

/-! ### Loads and stores -/

theorem _root_.Vmap.Spec.WinLaid.look {t : Target} {s : Vmap.Win} (l : WinLaid t s) {v : WinView} (hv : v ∈ s.views)
    {a : Nat} (h : v.base ≤ a ∧ a < v.base + v.len) : s.look a = some v := by
  unfold Win.look
  cases hc : s.views.find? (fun v => decide (v.base ≤ a ∧ a < v.base + v.len)) with
  | none =>
    rw [List.find?_eq_none] at hc
    exact absurd (decide_eq_true h) (hc v hv)
  | some x =>
    have h1 := List.find?_some hc
    simp only [decide_eq_true_eq] at h1
    rw [l.addr_inj (List.mem_of_find?_eq_some hc) hv h1 h]

/-- A store changes memory and copies only of the section at that address. -/
theorem win_store_other {s s' : Vmap.Win} {a : Nat} {b : Byte} {u : WinView} (look : s.look a = some u)
    (h : s.store a b = .ok s') {id : Nat} (hne : id ≠ u.sec.id) :
    s'.bytes.mem id = s.bytes.mem id ∧ s'.bytes.own id = s.bytes.own id := by
  unfold Win.store at h
  rw [look] at h
  dsimp only at h
  split at h
  · split at h
    · cases h
    · split at h
      · cases h; exact ⟨rfl, rfl⟩
      · cases h
        exact ⟨by funext j; simp [hne], rfl⟩
  · split at h
    · split at h
      · cases h
      · cases h
        exact ⟨rfl, by funext j; simp [hne]⟩
    · cases h

theorem win_fill_other {s : Vmap.Win} {ptr : Nat} {mem : Nat → Byte} {u : WinView} (look : s.look ptr = some u)
    {id : Nat} (hne : id ≠ u.sec.id) : (WinWorld.fill s ptr mem).bytes.mem id = s.bytes.mem id ∧
    (WinWorld.fill s ptr mem).bytes.own id = s.bytes.own id := by
  simp only [WinWorld.fill, look, if_neg hne, and_self]

theorem win_fill_file (s : Vmap.Win) (ptr : Nat) (mem : Nat → Byte) :
    (WinWorld.fill s ptr mem).bytes.file = s.bytes.file := by
  unfold WinWorld.fill
  split <;> rfl

theorem win_fill_files (s : Vmap.Win) (ptr : Nat) (mem : Nat → Byte) :
    (WinWorld.fill s ptr mem).files = s.files := by
  unfold WinWorld.fill
  split <;> rfl

/-! ### `map_if` and `alloc` -/

/-- What `map_if` does to files and bytes. -/
theorem win_mapIf_bytes {tab : SysTable} {t : Target} {s s' : Vmap.Win} (wf : WinWf t s) {o : Options} (hf : Fits t o)
    {file : Nat} {r : Result (Option MapMut)} (h : s.mapIf tab t o file = .ok (s', r)) :
    WinCalm s s' ∧
    ((∃ e, r = .error e ∧ ((s'.files = s.files ∧ s'.bytes.file = s.bytes.file) ∨
        (o.truncate = true ∧ FileNow s s' file 0 0))) ∨
      ∃ n, s.files file = some n ∧
        FileNow s s' file (cutLen o.truncate n (n % t.lim)) (leftLen o.truncate o.resize n (n % t.lim)) ∧
        ∀ m, r = .ok (some m) → InRange (newLen o.truncate o.resize (n % t.lim)) o.offset o.len ∧
          m.len = wanted (newLen o.truncate o.resize (n % t.lim)) o.offset o.len ∧
          ∃ v, WinMap t s s' m (some file) o.offset o.protect v ∧ ∀ a, s'.bytes.own v.sec.id a = none) := by
  rcases win_mapIf_sized tab s hf file with ⟨s1, code, eq, q, hfl⟩ | ⟨s1, n, hn, eq, q, hfl, fits⟩
  · rw [h] at eq
    cases eq
    exact ⟨q.calm, .inl ⟨_, rfl, hfl⟩⟩
  · obtain ⟨s2, r2, g1, g2, g3, g4, -⟩ := C81_map_partial t (q.wf wf) hf (file := file) fits
    rw [h, g1] at eq
    cases eq
    refine ⟨q.calm.trans q.views g2.calm, .inr ⟨n, hn, ?_, ?_⟩⟩
    · exact ⟨by rw [g2.files]; exact hfl.len, fun f hne => by rw [g2.files]; exact hfl.lens f hne,
        fun i hi => by rw [g2.bytes.file]; exact hfl.bytes i hi,
        fun f hne => by rw [g2.bytes.file]; exact hfl.others f hne⟩
    · intro m hm
      obtain ⟨a1, a2, ⟨v, mv⟩, -⟩ := g4 m hm
      exact ⟨a1, a2, v, WinMap.from q mv, (g2.bytes.new _ mv.sec.1 mv.new).2⟩

/-! ### Steps -/

/-- Every step but stores, calls on rings and changes from outside leaves memory and copies alone, and
no mapped file becomes too short; only `map_if` changes files. -/
theorem win_step_calm {tab : SysTable} {t : Target} {s0 : Vmap.Win} {w w' : WinWorld} (inv : WinInv t s0 w) {op : WinOp}
    (sane : op.Sane t w) (h : w.step tab t op = .ok w') (h1 : ∀ i idx b, op ≠ .set i idx b)
    (h2 : ∀ i r p m, op ≠ .ringUse i r p m) (h3 : ∀ i r p m, op ≠ .infUse i r p m) (h4 : ∀ f d, op ≠ .files f d) :
    WinCalm w.s w'.s ∧ ((∃ o file, op = .mapIf o file) ∨
      (w'.s.files = w.s.files ∧ w'.s.bytes.file = w.s.bytes.file)) := by
  have still : ∀ {op : WinOp}, WinStill w.s w'.s ∧ w' = w.run w'.s → WinCalm w.s w'.s ∧
      ((∃ o file, op = .mapIf o file) ∨ (w'.s.files = w.s.files ∧ w'.s.bytes.file = w.s.bytes.file)) :=
    fun q => ⟨q.1.quiet.calm, .inr ⟨q.1.files, by rw [q.1.bytes]⟩⟩
  cases op with
  | mapIf o file =>
    simp only [WinWorld.step, bind, Except.bind] at h
    split at h
    · cases h
    rename_i x hx
    obtain ⟨s', r⟩ := x
    have := (win_mapIf_bytes inv.wf sane hx).1
    refine ⟨?_, .inl ⟨o, file, rfl⟩⟩
    split at h
    · rename_i h1
      cases h1
      cases h
      exact this
    · rename_i h1 h2
      cases h2
      cases h
      exact this
  | alloc o =>
    simp only [WinWorld.step, bind, Except.bind] at h
    split at h
    · cases h
    rename_i x hx
    obtain ⟨s', r⟩ := x
    obtain ⟨s2, r2, g1, g2, -⟩ := C81_alloc_partial t inv.wf sane
    rw [hx] at g1
    cases g1
    cases r with
    | ok m => cases h; exact ⟨g2.calm, .inr ⟨g2.files, g2.bytes.file⟩⟩
    | error e => cases h; exact ⟨g2.calm, .inr ⟨g2.files, g2.bytes.file⟩⟩
  | newRing hint =>
    simp only [WinWorld.step, bind, Except.bind, Win.ringNew] at h
    split at h
    · cases h
    rename_i x hx
    split at hx
    · cases hx
    rename_i len hlen
    split at hx
    · cases hx
    rename_i y hy
    obtain ⟨s', r⟩ := y
    have g2 := win_mapRing_rest inv sane hlen hy
    cases r <;> (cases hx; cases h; exact ⟨g2.calm, .inr ⟨g2.files, g2.bytes.file⟩⟩)
  | newInf hint =>
    simp only [WinWorld.step, bind, Except.bind, Win.infNew] at h
    split at h
    · cases h
    rename_i x hx
    split at hx
    · cases hx
    rename_i len hlen
    split at hx
    · cases hx
    rename_i y hy
    obtain ⟨s', r⟩ := y
    have g2 := win_mapRing_rest inv sane hlen hy
    cases r <;> (cases hx; cases h; exact ⟨g2.calm, .inr ⟨g2.files, g2.bytes.file⟩⟩)
  | drop i =>
    have ring : ∀ ptr len, (∃ v1 v2, v1 ∈ w.s.views ∧ v2 ∈ w.s.views ∧ v1.base = ptr ∧
        v2.base = ptr + len ∧ v1.len = len ∧ v2.len = len ∧ 0 < len ∧ v1.sec = v2.sec ∧ v1.off = 0 ∧ v2.off = 0 ∧
        v1.access = { read := true, write := true } ∧ v2.access = { read := true, write := true }) →
        WinCalm w.s (w.s.unmapRing t ptr len).1 ∧ (w.s.unmapRing t ptr len).1.files = w.s.files ∧
        (w.s.unmapRing t ptr len).1.bytes.file = w.s.bytes.file := by
      rintro ptr len ⟨v1, v2, h1, h2, b1, b2, l1, l2, hl, -⟩
      obtain ⟨-, k2, -, k4, k5, -⟩ := win_unmapRing_views inv.wf inv.laid hl h1 h2 b1 b2 l2
      exact ⟨.eq k2 (by rw [k4]) (by rw [k4]) k5, k5, by rw [k4]⟩
    simp only [WinWorld.step] at h
    split at h
    · rename_i m hm
      simp only [bind, Except.bind] at h
      split at h
      · cases h
      · rename_i s' hs
        cases h
        by_cases h0 : 0 < m.len
        · obtain ⟨v, hv, mv⟩ := inv.there i _ hm
          rw [← inv.keeps.gran] at mv
          obtain ⟨s1, k0, -, k2, -, k4, k5⟩ := win_dropMap_view inv.wf inv.laid h0 hv mv
          rw [hs] at k0
          cases k0
          exact ⟨.eq k2 (congrArg WinBytes.mem k4) (congrArg WinBytes.own k4) k5, .inr ⟨k5, congrArg WinBytes.file k4⟩⟩
        · rw [Win.dropMap, if_neg h0] at hs
          cases hs
          exact ⟨.refl _, .inr ⟨rfl, rfl⟩⟩
    · rename_i r hr
      cases h
      obtain ⟨a, b⟩ := ring _ _ (inv.there i _ hr)
      exact ⟨a, .inr b⟩
    · rename_i r hr
      cases h
      obtain ⟨a, b⟩ := ring _ _ (inv.there i _ hr)
      exact ⟨a, .inr b⟩
    · cases h; exact ⟨.refl _, .inr ⟨rfl, rfl⟩⟩
  | flush i file off len mode =>
    exact still (win_onMap_still (fun m s r hf => win_range_still (fun a b => WinStill.flush w.s a file b mode) hf) h)
  | advise i off len adv =>
    exact still (win_onMap_still (fun m s r hf => win_range_still (g := fun a b => w.s.advise a b adv)
      (fun a b => WinStill.refl w.s) hf) h)
  | lock i off len =>
    exact still (win_onMap_still (fun m s r hf => win_range_still (fun a b => WinStill.lock w.s a b) hf) h)
  | unlock i off len =>
    exact still (win_onMap_still (fun m s r hf => win_range_still (fun a b => WinStill.unlock w.s a b) hf) h)
  | intoMapMut i => exact still (win_onMap_still (fun m s r hf => win_intoMapMut_still hf) h)
  | intoMap i => exact still (win_onMap_still (fun m s r hf => win_intoMap_still hf) h)
  | set i idx b => exact absurd rfl (h1 i idx b)
  | ringUse i rpos wpos mem => exact absurd rfl (h2 i rpos wpos mem)
  | infUse i rlen wpos mem => exact absurd rfl (h3 i rlen wpos mem)
  | files f d => exact absurd rfl (h4 f d)

/-! ### Maps that are held -/

/-- The program holds `m` as handle `i`, and its memory is view `v`. -/
structure WinMine (s0 : Vmap.Win) (w : WinWorld) (i : Nat) (m : MapMut) (v : WinView) : Prop where
  held : w.held i = some (.map m)
  view : v ∈ w.s.views
  owns : MapView s0.gran m v

theorem WinMine.lt {t : Target} {s0 : Vmap.Win} {w : WinWorld} {i : Nat} {m : MapMut} {v : WinView} (h : WinMine s0 w i m v)
    (inv : WinInv t s0 w) : i < w.next := by
  apply Decidable.byContradiction
  intro hc
  have := h.held
  rw [inv.next i (by omega)] at this
  cases this

theorem WinMine.look {t : Target} {s0 : Vmap.Win} {w : WinWorld} {i : Nat} {m : MapMut} {v : WinView} (h : WinMine s0 w i m v)
    (inv : WinInv t s0 w) {j : Nat} (hj : j < m.len) : w.s.look (m.ptr + j) = some v := by
  obtain ⟨-, h1, -, h2⟩ := h.owns
  exact inv.laid.look h.view (by omega)

/-- A map that is held after a step was held before it, with the same memory. -/
theorem WinMine.step {t : Target} {s0 : Vmap.Win} {w w' : WinWorld} {i : Nat} {m : MapMut} {v : WinView}
    (h : WinMine s0 w i m v) (inv : WinInv t s0 w) (n : WinNext t s0 w w') {x : WinHandle} (hx : w'.held i = some x) :
    x = .map m ∧ WinMine s0 w' i m v := by
  rcases n.kept.held i (h.lt inv) with h1 | ⟨a, b, h1, h2, h3, h4⟩
  · rw [h1] at hx; cases hx
  · rw [h.held] at h1
    rw [hx] at h2
    cases h1
    cases h2
    have : x = .map m := by
      cases x <;> simp only [WinHandle.Same] at h3
      rw [h3]
    subst this
    exact ⟨rfl, hx, h4 v h.view h.owns, h.owns⟩

/-- … or was not held in between. -/
theorem WinMine.before {t : Target} {s0 : Vmap.Win} {w w' : WinWorld} {i : Nat} (hi : i < w.next)
    (n : WinNext t s0 w w') {x : WinHandle} (hx : w'.held i = some x) : ∃ y, w.held i = some y := by
  rcases n.kept.held i hi with h1 | ⟨a, b, h1, -⟩
  · rw [h1] at hx; cases hx
  · exact ⟨a, h1⟩

/-- What is true of a map when it is made, and stays true in each step, is true as long as it is held. -/
theorem win_later_ind {tab : SysTable} {t : Target} {s0 : Vmap.Win} (wf : WinWf t s0) (laid : WinLaid t s0)
    {P : WinWorld → Prop} {w w' : WinWorld} (reach : WinReach tab t s0 w) {i : Nat} {m : MapMut} {v : WinView}
    (mine : WinMine s0 w i m v) (base : P w)
    (step : ∀ w1 w2 op, WinReach tab t s0 w1 → WinMine s0 w1 i m v → WinMine s0 w2 i m v → op.Sane t w1 →
      w1.step tab t op = .ok w2 → P w1 → P w2)
    (l : WinLater tab t w w') {x : WinHandle} (hx : w'.held i = some x) : WinMine s0 w' i m v ∧ P w' := by
  have hi : ∀ {w1}, WinLater tab t w w1 → i < w1.next := by
    intro w1 l1
    induction l1 with
    | refl => exact mine.lt (reach.inv wf laid)
    | step before sane st ih =>
      exact Nat.lt_of_lt_of_le ih (((reach.later before).inv wf laid).step sane st).kept.next
  induction l generalizing x with
  | refl => exact ⟨mine, base⟩
  | step before sane st ih =>
    have inv1 := (reach.later before).inv wf laid
    have n := inv1.step sane st
    obtain ⟨y, hy⟩ := WinMine.before (hi before) n hx
    obtain ⟨m1, p1⟩ := ih hy
    have m2 := (m1.step inv1 n hx).2
    exact ⟨m2, step _ _ _ (reach.later before) m1 m2 sane st p1⟩

/-- What a store is. -/
theorem win_set_fx {tab : SysTable} {t : Target} {w w' : WinWorld} {i idx : Nat} {b : Byte} {m : MapMut}
    (hm : w.held i = some (.map m)) (h : w.step tab t (.set i idx b) = .ok w') :
    idx < m.len ∧ ∃ s', w.s.store (m.ptr + idx) b = .ok s' ∧ w' = w.run s' := by
  simp only [WinWorld.step, hm, bind, Except.bind] at h
  split at h
  · cases h
  · rename_i s' hs
    cases h
    unfold Win.set at hs
    split at hs
    · rename_i hl
      exact ⟨hl, s', hs, rfl⟩
    · cases hs

theorem win_set_files {tab : SysTable} {t : Target} {w w' : WinWorld} {i idx : Nat} {b : Byte}
    (h : w.step tab t (.set i idx b) = .ok w') : w'.s.files = w.s.files := by
  simp only [WinWorld.step] at h
  split at h
  · simp only [bind, Except.bind] at h
    split at h
    · cases h
    · rename_i s' hs
      cases h
      unfold Win.set at hs
      split at hs
      · obtain ⟨x, hx⟩ := win_store_bare hs
        simp only [WinWorld.run, hx]
      · cases hs
  · cases h; rfl

/-- A step other than a use of the handle leaves its memory and its copies alone. -/
theorem win_other_step' {tab : SysTable} {t : Target} {s0 : Vmap.Win} {w w' : WinWorld} (inv : WinInv t s0 w) {i : Nat}
    {x : WinHandle} {v : WinView} (held : w.held i = some x) (view : v ∈ w.s.views)
    (owns : WinHandle.Owns s0.gran x v) {op : WinOp} (sane : op.Sane t w) (h : w.step tab t op = .ok w')
    (nomap : ∀ m, x = .map m → ∀ idx b, op ≠ .set i idx b)
    (noring : ∀ r, x = .ring r → ∀ rpos wpos mem, op ≠ .ringUse i rpos wpos mem)
    (noinf : ∀ r, x = .inf r → ∀ rlen wpos mem, op ≠ .infUse i rlen wpos mem) :
    w'.s.bytes.mem v.sec.id = w.s.bytes.mem v.sec.id ∧ w'.s.bytes.own v.sec.id = w.s.bytes.own v.sec.id := by
  have other : ∀ {j y u}, w.held j = some y → j ≠ i → u ∈ w.s.views → WinHandle.Owns s0.gran y u →
      v.sec.id ≠ u.sec.id := by
    intro j y u hy hne hu ho he
    exact hne (inv.one j i y x v view hy held (inv.sole j y u v hy hu view ho he) owns)
  have ring : ∀ {j y ptr len}, w.held j = some y → j ≠ i → (∀ v, WinHandle.Owns s0.gran y v ↔ RingView ptr len v) →
      (∃ v1 v2, v1 ∈ w.s.views ∧ v2 ∈ w.s.views ∧ v1.base = ptr ∧
        v2.base = ptr + len ∧ v1.len = len ∧ v2.len = len ∧ 0 < len ∧ v1.sec = v2.sec ∧ v1.off = 0 ∧ v2.off = 0 ∧
        v1.access = { read := true, write := true } ∧ v2.access = { read := true, write := true }) → ∀ mem,
      (WinWorld.fill w.s ptr mem).bytes.mem v.sec.id = w.s.bytes.mem v.sec.id ∧
      (WinWorld.fill w.s ptr mem).bytes.own v.sec.id = w.s.bytes.own v.sec.id := by
    rintro j y ptr len hy hne owns ⟨v1, v2, h1, h2, b1, b2, l1, l2, hl, -⟩ mem
    exact win_fill_other (inv.laid.look h1 (by omega)) (other hy hne h1 ((owns v1).mpr ⟨.inl b1, l1⟩))
  by_cases hs : ∃ j idx b, op = .set j idx b
  · obtain ⟨j, idx, b, rfl⟩ := hs
    by_cases hj : ∃ m', w.held j = some (.map m')
    · obtain ⟨m', hm'⟩ := hj
      have hne : j ≠ i := by
        rintro rfl
        rw [held] at hm'
        cases hm'
        exact nomap _ rfl _ _ rfl
      obtain ⟨hl, s', hst, rfl⟩ := win_set_fx hm' h
      obtain ⟨u, hu, ou⟩ := inv.there j _ hm'
      have ou' : MapView s0.gran m' u := ou
      obtain ⟨-, u1, -, u2⟩ := ou'
      exact win_store_other (inv.laid.look hu (by omega)) hst (other hm' hne hu ou)
    · simp only [WinWorld.step] at h
      split at h
      · rename_i m' hm'
        exact absurd ⟨m', hm'⟩ hj
      · cases h; exact ⟨rfl, rfl⟩
  by_cases hr : ∃ j rpos wpos mem, op = .ringUse j rpos wpos mem
  · obtain ⟨j, rpos, wpos, mem, rfl⟩ := hr
    simp only [WinWorld.step] at h
    split at h
    · rename_i r hr
      cases h
      have hne : j ≠ i := by
        rintro rfl
        rw [held] at hr
        cases hr
        exact noring _ rfl _ _ _ rfl
      exact ring hr hne (fun _ => Iff.rfl) (inv.there j _ hr) mem
    · cases h; exact ⟨rfl, rfl⟩
  by_cases hr' : ∃ j rpos wpos mem, op = .infUse j rpos wpos mem
  · obtain ⟨j, rpos, wpos, mem, rfl⟩ := hr'
    simp only [WinWorld.step] at h
    split at h
    · rename_i r hr
      cases h
      have hne : j ≠ i := by
        rintro rfl
        rw [held] at hr
        cases hr
        exact noinf _ rfl _ _ _ rfl
      exact ring hr hne (fun _ => Iff.rfl) (inv.there j _ hr) mem
    · cases h; exact ⟨rfl, rfl⟩
  by_cases hf : ∃ f d, op = .files f d
  · obtain ⟨f, d, rfl⟩ := hf
    cases h
    exact ⟨rfl, rfl⟩
  exact (win_step_calm inv sane h (fun a b c e => hs ⟨a, b, c, e⟩) (fun a b c d e => hr ⟨a, b, c, d, e⟩)
    (fun a b c d e => hr' ⟨a, b, c, d, e⟩) (fun a b e => hf ⟨a, b, e⟩)).1.old _ (inv.wf.views v view).2

/-- A step other than a store through the map leaves its memory and its copies alone. -/
theorem win_other_step {tab : SysTable} {t : Target} {s0 : Vmap.Win} {w w' : WinWorld} (inv : WinInv t s0 w) {i : Nat}
    {m : MapMut} {v : WinView} (mine : WinMine s0 w i m v) {op : WinOp} (sane : op.Sane t w)
    (h : w.step tab t op = .ok w') (noset : ∀ idx b, op ≠ .set i idx b) :
    w'.s.bytes.mem v.sec.id = w.s.bytes.mem v.sec.id ∧ w'.s.bytes.own v.sec.id = w.s.bytes.own v.sec.id :=
  win_other_step' inv mine.held mine.view mine.owns sane h (fun _ _ => noset) (fun _ h => (nomatch h)) (fun _ h => (nomatch h))

/-- Is the byte's page behind the end of the file? -/
theorem win_lost_iff {s : Vmap.Win} {sec : Section} {file n : Nat} (h : sec.file = some file) :
    s.lost sec n = true ↔ WinCut s file n := by
  unfold Win.lost WinCut
  rw [h]
  dsimp only
  cases hf : s.files file with
  | none => simp
  | some k => simp

/-- What a read finds. -/
theorem WinMine.get {t : Target} {s0 : Vmap.Win} {w : WinWorld} {i : Nat} {m : MapMut} {v : WinView}
    (h : WinMine s0 w i m v) (inv : WinInv t s0 w) {p : Protect} (acc : WinAllows p v.access) {j : Nat} (hj : j < m.len) :
    w.s.get m j = match w.s.bytes.own v.sec.id (m.ptr + j) with
      | some b => .ok b
      | none => if w.s.lost v.sec (v.off + (m.ptr + j - v.base)) = true then .error .memory
        else .ok (w.s.bytes.shown v.sec (v.off + (m.ptr + j - v.base))) := by
  have hr : (v.access.read || v.access.copy) = true := by
    rcases acc.read with h | h <;> simp [h]
  simp only [Win.get, if_pos hj, Win.load, h.look inv hj, hr, Bool.true_and]
  cases w.s.bytes.own v.sec.id (m.ptr + j) with
  | some b => rfl
  | none => cases w.s.lost v.sec (v.off + (m.ptr + j - v.base)) <;> rfl

/-- What a store through a map with access `ReadWrite` does. -/
theorem WinMine.write {t : Target} {s0 : Vmap.Win} {w : WinWorld} {i : Nat} {m : MapMut} {v : WinView}
    (h : WinMine s0 w i m v) (inv : WinInv t s0 w) (acc : v.access.write = true) {j : Nat} (hj : j < m.len) (b : Byte) :
    w.s.store (m.ptr + j) b = if w.s.lost v.sec (v.off + (m.ptr + j - v.base)) = true then .error .memory
      else match v.sec.file with
        | some f => .ok { w.s with bytes := { w.s.bytes with
            file := fun g k => if g = f ∧ k = v.off + (m.ptr + j - v.base) then b else w.s.bytes.file g k } }
        | none => .ok { w.s with bytes := { w.s.bytes with
            mem := fun x k => if x = v.sec.id ∧ k = v.off + (m.ptr + j - v.base) then b else w.s.bytes.mem x k } } := by
  simp only [Win.store, h.look inv hj, acc, if_true]
  cases v.sec.file <;> rfl

/-- What a store through a copy-on-write map does. -/
theorem WinMine.copy {t : Target} {s0 : Vmap.Win} {w : WinWorld} {i : Nat} {m : MapMut} {v : WinView}
    (h : WinMine s0 w i m v) (inv : WinInv t s0 w) (acc : WinAllows .readCopy v.access) {j : Nat} (hj : j < m.len) (b : Byte)
    {s' : Vmap.Win} (hs : w.s.store (m.ptr + j) b = .ok s') :
    s'.bytes.file = w.s.bytes.file ∧ s'.bytes.mem = w.s.bytes.mem ∧ s'.files = w.s.files ∧ s'.page = w.s.page ∧
    ∀ k, k < m.len → s'.bytes.own v.sec.id (m.ptr + k) =
      if k = j then some b
      else if (m.ptr + k) / w.s.page = (m.ptr + j) / w.s.page then
        some ((w.s.bytes.own v.sec.id (m.ptr + k)).getD (w.s.bytes.shown v.sec (v.off + (m.ptr + k - v.base))))
      else w.s.bytes.own v.sec.id (m.ptr + k) := by
  have hw : v.access.write = false := by
    cases hc : v.access.write with
    | false => rfl
    | true => exact absurd (acc.write.mp hc) (by simp)
  have hc := acc.copy.mpr rfl
  simp only [Win.store, h.look inv hj, hw, hc, if_true, Bool.false_eq_true, if_false] at hs
  split at hs
  · cases hs
  · cases hs
    refine ⟨rfl, rfl, rfl, rfl, fun k hk => ?_⟩
    obtain ⟨-, o1, -, o2⟩ := h.owns
    simp only [true_and]
    by_cases hkj : k = j
    · subst hkj
      rw [if_pos ⟨rfl, by omega, by omega⟩, if_pos rfl, if_pos rfl]
    · rw [if_neg hkj]
      by_cases hp : (m.ptr + k) / w.s.page = (m.ptr + j) / w.s.page
      · rw [if_pos ⟨hp, by omega, by omega⟩, if_neg (by omega), if_pos hp]
        cases w.s.bytes.own v.sec.id (m.ptr + k) <;> rfl
      · rw [if_neg (fun h => hp h.1), if_neg hp]

/-- Without write or copy access there is no store. -/
theorem WinMine.refused {t : Target} {s0 : Vmap.Win} {w : WinWorld} {i : Nat} {m : MapMut} {v : WinView}
    (h : WinMine s0 w i m v) (inv : WinInv t s0 w) {p : Protect} (acc : WinAllows p v.access) (hp : p = .readOnly ∨ p = .readExec)
    {j : Nat} (hj : j < m.len) (b : Byte) : w.s.store (m.ptr + j) b = .error .memory := by
  have hw : v.access.write = false := by
    cases hc : v.access.write with
    | false => rfl
    | true => have := acc.write.mp hc; rcases hp with rfl | rfl <;> cases this
  have hc : v.access.copy = false := by
    cases hc : v.access.copy with
    | false => rfl
    | true => have := acc.copy.mp hc; rcases hp with rfl | rfl <;> cases this
  simp only [Win.store, h.look inv hj, hw, hc, Bool.false_eq_true, if_false]

/-! ### Maps of files -/

theorem win_inRange_wanted {flen off : Nat} {e : Extent} (h : InRange flen off e) : off + wanted flen off e ≤ flen := by
  cases e with
  | endOf => simp only [InRange, wanted] at h ⊢; omega
  | exact l => exact h
  | min l => simp only [InRange, wanted] at h ⊢; omega
  | max l =>
    simp only [InRange, wanted] at h ⊢
    have : Nat.min l (flen - off) ≤ flen - off := Nat.min_le_right l (flen - off)
    omega

theorem win_newLen_le (trunc : Bool) (e : Extent) {n seen : Nat} (h : seen ≤ n) :
    newLen trunc e seen ≤ leftLen trunc e n seen := by
  have hc : (if trunc = true then 0 else seen) ≤ cutLen trunc n seen := by
    unfold cutLen
    split
    · exact Nat.zero_le _
    · rename_i ht
      rw [if_neg (fun h => ht h.1)]
      exact h
  unfold newLen leftLen
  generalize (if trunc = true then 0 else seen) = b at *
  cases e with
  | endOf => exact hc
  | exact x => exact Nat.le_refl _
  | min x =>
    dsimp only
    split
    · exact Nat.max_le.mpr ⟨Nat.le_refl _, by omega⟩
    · exact Nat.max_le.mpr ⟨by omega, hc⟩
  | max x =>
    dsimp only
    split
    · exact Nat.min_le_left _ _
    · exact Nat.le_trans (Nat.min_le_right _ _) hc

/-- What is known of a map of a file when it is made. -/
theorem win_made_map {tab : SysTable} {t : Target} {s0 : Vmap.Win} (wf : WinWf t s0) (laid : WinLaid t s0) {w : WinWorld}
    (h : WinReach tab t s0 w) {o : Options} (hf : Fits t o) {file : Nat} {s' : Vmap.Win} {m : MapMut}
    (made : w.s.mapIf tab t o file = .ok (s', .ok (some m))) :
    WinReach tab t s0 (w.put s' (.map m)) ∧ ∃ v, WinMine s0 (w.put s' (.map m)) w.next m v ∧
      v.sec.file = some file ∧ WinAllows o.protect v.access ∧
      (∀ j, j < m.len → v.off + (m.ptr + j - v.base) = o.offset + j) ∧
      (∀ a, s'.bytes.own v.sec.id a = none) ∧ o.offset + m.len ≤ v.sec.size ∧
      ∀ n, s'.files file = some n → o.offset + m.len ≤ n := by
  have hr : WinReach tab t s0 (w.put s' (.map m)) := .step (op := .mapIf o file) h hf
    (by simp only [WinWorld.step, made, bind, Except.bind]; rfl)
  have inv := h.inv wf laid
  have inv' := hr.inv wf laid
  refine ⟨hr, ?_⟩
  obtain ⟨-, ⟨e, he, -⟩ | ⟨n, hn, now, g⟩⟩ := win_mapIf_bytes inv.wf hf made
  · cases he
  obtain ⟨g1, g2, v, mv, own⟩ := g m rfl
  have hv : v ∈ s'.views := by rw [mv.views]; exact List.mem_cons_self
  obtain ⟨i1, i2, -, -⟩ := mv.inside
  obtain ⟨a1, a2, -⟩ := mv.start
  refine ⟨v, ⟨by simp [WinWorld.put], hv, ?_⟩, mv.sec.2, mv.access, ?_, own, mv.size, ?_⟩
  · rw [← inv.keeps.gran]
    exact ⟨a1, i1, a2, i2⟩
  · intro j hj
    have h1 := mv.bytes j hj
    rw [Win.shows_cons mv.views (by omega)] at h1
    simp only [Option.some.injEq, Prod.mk.injEq, true_and] at h1
    exact h1
  · intro n' hn'
    rw [now.len] at hn'
    injection hn' with hn'
    have h1 : o.offset + m.len ≤ newLen o.truncate o.resize (n % t.lim) := by
      rw [g2]
      exact win_inRange_wanted g1
    have h2 := win_newLen_le o.truncate o.resize (n := n) (seen := n % t.lim) (Nat.mod_le n t.lim)
    omega

/-- What is known of allocated memory when it is made. -/
theorem win_made_alloc {tab : SysTable} {t : Target} {s0 : Vmap.Win} (wf : WinWf t s0) (laid : WinLaid t s0) {w : WinWorld}
    (h : WinReach tab t s0 w) {o : Options} (hf : WinAllocFits t w.s.gran (o.offset % w.s.page) o.len) {s' : Vmap.Win}
    {m : MapMut} (made : w.s.alloc t o = .ok (s', .ok m)) :
    WinReach tab t s0 (w.put s' (.map m)) ∧ ∃ v, WinMine s0 (w.put s' (.map m)) w.next m v ∧
      v.sec.file = none ∧ WinAllows o.protect v.access ∧
      (∃ d, ∀ j, j < m.len → v.off + (m.ptr + j - v.base) = d + j) ∧
      (∀ a, s'.bytes.own v.sec.id a = none) ∧ ∀ n, s'.bytes.mem v.sec.id n = 0 := by
  have hr : WinReach tab t s0 (w.put s' (.map m)) := .step (op := .alloc o) h hf
    (by simp only [WinWorld.step, made, bind, Except.bind]; rfl)
  have inv := h.inv wf laid
  have inv' := hr.inv wf laid
  refine ⟨hr, ?_⟩
  obtain ⟨s2, r2, g1, g2, -, g4, -⟩ := C81_alloc_partial t inv.wf hf
  rw [made] at g1
  cases g1
  obtain ⟨-, -, ⟨v, mv⟩, -⟩ := g4 m rfl
  have hv : v ∈ s'.views := by rw [mv.views]; exact List.mem_cons_self
  obtain ⟨i1, i2, -, -⟩ := mv.inside
  obtain ⟨a1, a2, -⟩ := mv.start
  obtain ⟨n1, n2⟩ := g2.bytes.new _ mv.sec.1 mv.new
  refine ⟨v, ⟨by simp [WinWorld.put], hv, ?_⟩, mv.sec.2, mv.access, ⟨o.offset % w.s.page, ?_⟩, n2, n1⟩
  · rw [← inv.keeps.gran]
    exact ⟨a1, i1, a2, i2⟩
  · intro j hj
    have h1 := mv.bytes j hj
    rw [Win.shows_cons mv.views (by omega)] at h1
    simp only [Option.some.injEq, Prod.mk.injEq, true_and] at h1
    exact h1

end Vmap
