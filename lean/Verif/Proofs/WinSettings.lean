import Verif.Spec.WinSettings
import Verif.Proofs.WinBytes
/- Helper lemmas: locked memory in whole programs on Windows. -/
namespace Vmap
open Spec

/-- The view has this page. -/
abbrev WinView.On (u : Nat) (v : WinView) (q : Nat) : Prop := v.base ≤ q * u ∧ q * u < v.base + v.len

theorem WinView.onPage_iff {u : Nat} {v : WinView} {q : Nat} : v.onPage u q = true ↔ v.On u q := decide_eq_true_iff

/-- Locks are kept with the views they are in, and go with them. -/
structure WinLk (s s' : Vmap.Win) : Prop where
  page : s'.page = s.page
  less : ∀ q, s'.locked q = true → s.locked q = true
  keep : ∀ v, v ∈ s.views → v ∈ s'.views → ∀ q, v.On s.page q → s'.locked q = s.locked q
  gone : ∀ v, v ∈ s.views → v ∉ s'.views → ∀ q, v.On s.page q → s'.locked q = false

/-- … and all views are kept. -/
structure WinLkAll (s s' : Vmap.Win) : Prop where
  page : s'.page = s.page
  less : ∀ q, s'.locked q = true → s.locked q = true
  views : ∀ v, v ∈ s.views → v ∈ s'.views
  keep : ∀ v, v ∈ s.views → ∀ q, v.On s.page q → s'.locked q = s.locked q

theorem WinLkAll.lk {s s' : Vmap.Win} (h : WinLkAll s s') : WinLk s s' :=
  ⟨h.page, h.less, fun v hv _ => h.keep v hv, fun v hv hn => absurd (h.views v hv) hn⟩

theorem WinLkAll.eq {s s' : Vmap.Win} (page : s'.page = s.page) (locked : s'.locked = s.locked)
    (views : ∀ v, v ∈ s.views → v ∈ s'.views) : WinLkAll s s' :=
  ⟨page, fun q h => by rw [← locked]; exact h, views, fun _ _ q _ => by rw [locked]⟩

theorem WinLkAll.refl (s : Vmap.Win) : WinLkAll s s := .eq rfl rfl (fun _ h => h)

theorem WinLkAll.trans {a b c : Vmap.Win} (h : WinLkAll a b) (g : WinLkAll b c) : WinLkAll a c :=
  ⟨g.page.trans h.page, fun q x => h.less q (g.less q x), fun v x => g.views v (h.views v x),
    fun v hv q hq => (g.keep v (h.views v hv) q (by rw [h.page]; exact hq)).trans (h.keep v hv q hq)⟩

theorem WinLk.locksIn {s s' : Vmap.Win} (h : WinLk s s') (g : WinLocksIn s) : WinLocksIn s' := by
  intro a ha
  have ha' : s'.locked (a / s.page) = true := by rw [← h.page]; exact ha
  obtain ⟨v, hv, p⟩ := g a (h.less _ ha')
  refine ⟨v, ?_, by rw [h.page]; exact p⟩
  apply Classical.byContradiction
  intro hn
  rw [h.gone v hv hn _ p] at ha'
  cases ha'

/-! ### Making -/

theorem win_handleNew_lk {t : Target} {s s' : Vmap.Win} {op : Operation} {file : Option Nat} {prot : WinProt} {len : Nat}
    {r : Result Nat} (h : s.handleNew t op file prot len = .ok (s', r)) :
    s'.locked = s.locked ∧ s'.views = s.views ∧ s'.page = s.page := by
  simp only [Win.handleNew, bind, Except.bind, Win.createFileMapping] at h
  split at h
  · cases h
  split at h
  all_goals
    rename_i heq
    split at heq <;> cases heq <;> cases h <;> exact ⟨rfl, rfl, rfl⟩

theorem win_mapView_lk {t : Target} (s : Vmap.Win) (hd : Nat) (acc : WinAccess) (hi lo len at' : Nat) :
    (∃ s' e, s.mapViewOfFileEx t hd acc hi lo len at' = (s', .error e) ∧ s'.locked = s.locked ∧ s'.page = s.page ∧
      s'.views = s.views) ∨
    ∃ s' v, s.mapViewOfFileEx t hd acc hi lo len at' = (s', .ok v.base) ∧ s'.locked = s.locked ∧ s'.page = s.page ∧
      s'.views = v :: s.views ∧ v.len ≠ 0 ∧ s.free v.base v.len = true := by
  simp only [Win.mapViewOfFileEx]
  cases s.handles hd with
  | none => exact .inl ⟨_, _, rfl, rfl, rfl, rfl⟩
  | some sec =>
    dsimp only
    generalize (if len = 0 then sec.size - (hi * 2 ^ 32 + lo) else len) = n
    generalize (if at' = 0 then s.choice.addr else at') = base
    by_cases hc : s.choice.ok = true ∧ (hi * 2 ^ 32 + lo) % s.gran = 0 ∧ n ≠ 0 ∧ hi * 2 ^ 32 + lo + n ≤ sec.size ∧
        base ≠ 0 ∧ base % s.gran = 0 ∧ base + s.roundPage n < t.lim ∧ s.free base n = true ∧
        Win.permits sec.prot acc = true
    · rw [if_pos hc]
      exact .inr ⟨_, ⟨base, n, sec, hi * 2 ^ 32 + lo, acc⟩, rfl, rfl, rfl, rfl, hc.2.2.1, hc.2.2.2.2.2.2.2.1⟩
    · rw [if_neg hc]
      exact .inl ⟨_, _, rfl, rfl, rfl, rfl⟩

theorem win_view_lk {t : Target} {s s' : Vmap.Win} {hd : Nat} {op : Operation} {acc : WinAccess} {off len at' : Nat}
    {r : Result Nat} (h : s.view t hd op acc off len at' = .ok (s', r)) :
    s'.locked = s.locked ∧ s'.page = s.page ∧
      ((s'.views = s.views ∧ ∃ e, r = .error e) ∨ ∃ v, s'.views = v :: s.views ∧ r = .ok v.base ∧ v.len ≠ 0 ∧
        s.free v.base v.len = true) := by
  simp only [Win.view, bind, Except.bind] at h
  split at h
  · cases h
  rename_i hi _
  rcases win_mapView_lk (t := t) s hd acc hi (Win.lo32 off) len at' with ⟨s1, e, h1, h2, h3, h4⟩ | ⟨s1, v, h1, h2, h3, h4⟩
  · rw [h1] at h
    cases h
    exact ⟨h2, h3, .inl ⟨h4, _, rfl⟩⟩
  · rw [h1] at h
    cases h
    exact ⟨h2, h3, .inr ⟨v, h4.1, rfl, h4.2⟩⟩

theorem win_view_all {t : Target} {s s' : Vmap.Win} {hd : Nat} {op : Operation} {acc : WinAccess} {off len at' : Nat}
    {r : Result Nat} (h : s.view t hd op acc off len at' = .ok (s', r)) : WinLkAll s s' := by
  obtain ⟨h1, h2, h3⟩ := win_view_lk h
  refine .eq h2 h1 ?_
  rcases h3 with ⟨h3, -⟩ | ⟨v, h3, -⟩
  · rw [h3]; exact fun _ h => h
  · rw [h3]; exact fun _ h => List.mem_cons_of_mem _ h

theorem win_mapFile_lk {t : Target} {s s' : Vmap.Win} {file off len : Nat} {prot : Protect} {r : Result Nat}
    (h : s.mapFile t file off len prot = .ok (s', r)) : s'.locked = s.locked ∧ WinLkAll s s' := by
  simp only [Win.mapFile, bind, Except.bind] at h
  split at h
  · cases h
  rename_i x hx
  obtain ⟨s1, r1⟩ := x
  obtain ⟨a1, a2, a3⟩ := win_handleNew_lk hx
  have q1 : WinLkAll s s1 := .eq a3 a1 (by rw [a2]; exact fun _ h => h)
  cases r1 with
  | error e => cases h; exact ⟨a1, q1⟩
  | ok hd =>
    dsimp only at h
    split at h
    · cases h
    rename_i y hy
    obtain ⟨s2, r2⟩ := y
    cases h
    have := win_view_all hy
    exact ⟨(win_view_lk hy).1.trans a1, q1.trans (this.trans (.eq rfl rfl (fun _ h => h)))⟩

theorem win_mapAnon_lk {t : Target} {s s' : Vmap.Win} {len : Nat} {prot : Protect} {r : Result Nat}
    (h : s.mapAnon t len prot = .ok (s', r)) : s'.locked = s.locked ∧ WinLkAll s s' := by
  simp only [Win.mapAnon, bind, Except.bind] at h
  split at h
  · cases h
  rename_i x hx
  obtain ⟨s1, r1⟩ := x
  obtain ⟨a1, a2, a3⟩ := win_handleNew_lk hx
  have q1 : WinLkAll s s1 := .eq a3 a1 (by rw [a2]; exact fun _ h => h)
  cases r1 with
  | error e => cases h; exact ⟨a1, q1⟩
  | ok hd =>
    dsimp only at h
    split at h
    · cases h
    rename_i y hy
    obtain ⟨s2, r2⟩ := y
    cases h
    have := win_view_all hy
    exact ⟨(win_view_lk hy).1.trans a1, q1.trans (this.trans (.eq rfl rfl (fun _ h => h)))⟩

theorem win_alloc_lk {t : Target} {s s' : Vmap.Win} {o : Options} {r : Result MapMut}
    (h : s.alloc t o = .ok (s', r)) : s'.locked = s.locked ∧ WinLkAll s s' := by
  simp only [Win.alloc, bind, Except.bind] at h
  split at h
  · cases h
  split at h
  · cases h
  split at h
  · cases h
  split at h
  · cases h
  rename_i x hx
  obtain ⟨s1, r1⟩ := x
  have := win_mapAnon_lk hx
  cases r1 <;> (cases h; exact this)

theorem win_mapStep_lk {t : Target} {s s' : Vmap.Win} {o : Options} {file flen : Nat} {r : Result (Option MapMut)}
    (h : s.mapStep t o file flen = .ok (s', r)) : s'.locked = s.locked ∧ WinLkAll s s' := by
  simp only [Win.mapStep, bind, Except.bind] at h
  split at h
  · cases h; exact ⟨rfl, .refl _⟩
  split at h
  · cases h
  split at h
  · cases h; exact ⟨rfl, .refl _⟩
  split at h
  · cases h
  split at h
  · cases h
  split at h
  · cases h
  split at h
  · cases h
  rename_i x hx
  obtain ⟨s1, r1⟩ := x
  have := win_mapFile_lk hx
  cases r1 <;> (cases h; exact this)

theorem win_resizeFile_lk {tab : SysTable} {s s' : Vmap.Win} {file sz : Nat} {r : Result Nat}
    (h : s.resizeFile tab file sz = (s', r)) : s'.locked = s.locked ∧ s'.views = s.views ∧ s'.page = s.page := by
  unfold Win.resizeFile Win.setLen at h
  split at h
  all_goals
    rename_i heq
    split at heq <;> cases heq <;> cases h <;> exact ⟨rfl, rfl, rfl⟩

theorem win_truncateStep_lk {tab : SysTable} {s s' : Vmap.Win} {o : Options} {file n : Nat} {r : Result Nat}
    (h : s.truncateStep tab o file n = (s', r)) : s'.locked = s.locked ∧ s'.views = s.views ∧ s'.page = s.page := by
  unfold Win.truncateStep at h
  split at h
  · exact win_resizeFile_lk h
  · cases h; exact ⟨rfl, rfl, rfl⟩

theorem win_resizeStep_lk {tab : SysTable} {s s' : Vmap.Win} {o : Options} {file n : Nat} {r : Result Nat}
    (h : s.resizeStep tab o file n = (s', r)) : s'.locked = s.locked ∧ s'.views = s.views ∧ s'.page = s.page := by
  unfold Win.resizeStep at h
  split at h
  · exact win_resizeFile_lk h
  · split at h
    · exact win_resizeFile_lk h
    · cases h; exact ⟨rfl, rfl, rfl⟩
  · split at h
    · exact win_resizeFile_lk h
    · cases h; exact ⟨rfl, rfl, rfl⟩
  · cases h; exact ⟨rfl, rfl, rfl⟩

theorem win_fileLen_lk {tab : SysTable} {s s' : Vmap.Win} {file : Nat} {r : IoResult Nat}
    (h : s.fileLen tab file = (s', r)) : s'.locked = s.locked ∧ s'.views = s.views ∧ s'.page = s.page := by
  unfold Win.fileLen at h
  cases hf : s.files file with
  | none => rw [hf] at h; cases h; exact ⟨rfl, rfl, rfl⟩
  | some n =>
    rw [hf] at h
    cases hc : s.choice.ok with
    | true => simp only [hc, if_true] at h; cases h; exact ⟨rfl, rfl, rfl⟩
    | false => simp only [hc] at h; cases h; exact ⟨rfl, rfl, rfl⟩

theorem WinLkAll.still {s s' : Vmap.Win} (h : s'.locked = s.locked ∧ s'.views = s.views ∧ s'.page = s.page) :
    WinLkAll s s' := .eq h.2.2 h.1 (by rw [h.2.1]; exact fun _ h => h)

theorem win_mapIf_lk {tab : SysTable} {t : Target} {s s' : Vmap.Win} {o : Options} {file : Nat} {r : Result (Option MapMut)}
    (h : s.mapIf tab t o file = .ok (s', r)) : s'.locked = s.locked ∧ WinLkAll s s' := by
  unfold Win.mapIf at h
  split at h
  · rename_i h1
    cases h
    have := win_fileLen_lk h1
    exact ⟨this.1, .still this⟩
  rename_i h1
  have g1 := win_fileLen_lk h1
  split at h
  · rename_i h2
    cases h
    have g2 := win_truncateStep_lk h2
    exact ⟨g2.1.trans g1.1, (WinLkAll.still g1).trans (.still g2)⟩
  rename_i h2
  have g2 := win_truncateStep_lk h2
  split at h
  · rename_i h3
    cases h
    have g3 := win_resizeStep_lk h3
    exact ⟨(g3.1.trans g2.1).trans g1.1, ((WinLkAll.still g1).trans (.still g2)).trans (.still g3)⟩
  rename_i h3
  have g3 := win_resizeStep_lk h3
  have g4 := win_mapStep_lk h
  exact ⟨((g4.1.trans g3.1).trans g2.1).trans g1.1, (((WinLkAll.still g1).trans (.still g2)).trans (.still g3)).trans g4.2⟩

/-! ### Rings -/

/-- A free range has no page of a view. -/
theorem win_free_on {s : Vmap.Win} (hp : 0 < s.page) {v x : WinView} (h : s.free v.base v.len = true) (hx : x ∈ s.views)
    {q : Nat} (h1 : v.On s.page q) (h2 : x.On s.page q) : False := by
  have := Win.free_views hp h hx
  obtain ⟨a1, a2⟩ := h1
  obtain ⟨b1, b2⟩ := h2
  omega

theorem win_ringHandle_lk {t : Target} {s s' : Vmap.Win} (hp : 0 < s.page) (pos : ∀ v, v ∈ s.views → 0 < v.len)
    {hd len pg : Nat} {r : Result Nat} (h : s.mapRingHandle t hd len pg = .ok (s', r)) :
    WinLkAll s s' ∧ ∀ e, r = .error e → s'.views = s.views := by
  simp only [Win.mapRingHandle, bind, Except.bind] at h
  split at h
  · cases h
  rename_i x hx
  obtain ⟨s1, r1⟩ := x
  have q1 := win_view_all hx
  obtain ⟨a1, a2, a3⟩ := win_view_lk hx
  cases r1 with
  | error e =>
    cases h
    refine ⟨q1, fun _ _ => ?_⟩
    rcases a3 with a3 | ⟨v, -, a3, -⟩
    · exact a3.1
    · cases a3
  | ok a =>
    dsimp only at h
    split at h
    · cases h
    rename_i y hy
    obtain ⟨s2, r2⟩ := y
    have q2 := win_view_all hy
    obtain ⟨b1, b2, b3⟩ := win_view_lk hy
    cases r2 with
    | ok b => cases h; exact ⟨q1.trans q2, fun e h => (nomatch h)⟩
    | error e =>
      cases h
      rcases a3 with ⟨-, _, a3⟩ | ⟨v, v1, v2, v3, v4⟩
      · cases a3
      have c1 : s2.views = s1.views := by
        rcases b3 with ⟨c1, -⟩ | ⟨v, -, b3, -⟩
        · exact c1
        · cases b3
      cases v2
      have hne : ∀ x, x ∈ s.views → x.base ≠ v.base := by
        intro x hx he
        have := Win.free_views hp v4 hx
        have := pos x hx
        omega
      have hu := Win.unmap_last (s := s2) (c1.trans v1) hne
      simp only [hu]
      have hpg : s2.page = s.page := b2.trans a2
      have hlk : s2.locked = s.locked := b1.trans a1
      refine ⟨⟨hpg, fun q h => ?_, fun x hx => hx, fun x hx q hq => ?_⟩, fun _ _ => trivial⟩
      · change (s2.locked q && _) = true at h
        rw [Bool.and_eq_true, hlk] at h
        exact h.1
      · show (s2.locked q && !v.onPage s2.page q) = _
        have : v.onPage s2.page q = false := by
          rw [← Bool.not_eq_true, WinView.onPage_iff, hpg]
          exact fun h1 => win_free_on hp v4 hx h1 hq
        rw [this, hlk, Bool.not_false, Bool.and_true]

theorem win_reserve_lk {t : Target} {s s' : Vmap.Win} {len : Nat} {r : Result Nat}
    (h : s.reserve t len = (s', r)) : s'.locked = s.locked ∧ s'.views = s.views ∧ s'.page = s.page := by
  simp only [Win.reserve, Win.virtualAlloc] at h
  split at h
  all_goals
    rename_i heq
    split at heq <;> cases heq <;> cases h <;> exact ⟨rfl, rfl, rfl⟩

theorem win_ringLoop_lk {t : Target} {hd len full : Nat} (left : Nat) : ∀ {s s' : Vmap.Win}, 0 < s.page →
    (∀ v, v ∈ s.views → 0 < v.len) → ∀ {r : Result Nat}, Win.mapRingLoop t left s hd len full = .ok (s', r) →
    WinLkAll s s' := by
  induction left with
  | zero =>
    intro s s' hp pos r h
    rw [Win.mapRingLoop] at h
    split at h
    · rename_i h1
      cases h
      exact .still (win_reserve_lk h1)
    rename_i s1 pg h1
    have g1 := win_reserve_lk h1
    simp only [bind, Except.bind] at h
    split at h
    · cases h
    rename_i x hx
    obtain ⟨s2, r2⟩ := x
    have g2 := win_ringHandle_lk (by rw [g1.2.2]; exact hp) (by rw [g1.2.1]; exact pos) hx
    cases r2 <;> (cases h; exact (WinLkAll.still g1).trans g2.1)
  | succ left ih =>
    intro s s' hp pos r h
    rw [Win.mapRingLoop] at h
    split at h
    · rename_i h1
      cases h
      exact .still (win_reserve_lk h1)
    rename_i s1 pg h1
    have g1 := win_reserve_lk h1
    simp only [bind, Except.bind] at h
    split at h
    · cases h
    rename_i x hx
    obtain ⟨s2, r2⟩ := x
    have g2 := win_ringHandle_lk (by rw [g1.2.2]; exact hp) (by rw [g1.2.1]; exact pos) hx
    cases r2 with
    | ok a => cases h; exact (WinLkAll.still g1).trans g2.1
    | error e =>
      have hv := g2.2 e rfl
      exact ((WinLkAll.still g1).trans g2.1).trans (ih (by rw [g2.1.page, g1.2.2]; exact hp)
        (by rw [hv, g1.2.1]; exact pos) h)

theorem win_mapRing_lk {t : Target} {s s' : Vmap.Win} (hp : 0 < s.page) (pos : ∀ v, v ∈ s.views → 0 < v.len)
    {len : Nat} {r : Result Nat} (h : s.mapRing t len = .ok (s', r)) : WinLkAll s s' := by
  simp only [Win.mapRing, bind, Except.bind] at h
  split at h
  · cases h
  split at h
  · cases h
  rename_i x hx
  obtain ⟨s1, r1⟩ := x
  have g1 := win_handleNew_lk hx
  cases r1 with
  | error e => cases h; exact .still g1
  | ok hd =>
    dsimp only at h
    split at h
    · cases h
    rename_i y hy
    obtain ⟨s2, r2⟩ := y
    cases h
    have g2 := win_ringLoop_lk 5 (by rw [g1.2.2]; exact hp) (by rw [g1.2.1]; exact pos) hy
    exact ((WinLkAll.still g1).trans g2).trans (.eq rfl rfl (fun _ h => h))

/-! ### Dropping -/

theorem win_dropMap_lk {t : Target} {s s' : Vmap.Win} (wf : WinWf t s) (l : WinLaid t s) {m : MapMut} (hm : 0 < m.len)
    {v : WinView} (hv : v ∈ s.views) (mv : MapView s.gran m v) (h : s.dropMap t m = .ok s') : WinLk s s' := by
  rw [win_dropMap_eq wf l hm hv mv] at h
  injection h with h
  subst h
  refine ⟨rfl, fun q h => ?_, fun x hx hx' q hq => ?_, fun x hx hx' q hq => ?_⟩
  · change (s.locked q && _) = true at h
    rw [Bool.and_eq_true] at h
    exact h.1
  · show (s.locked q && !_) = _
    have : s.views.any (fun x => decide (x.base = v.base) && x.onPage s.page q) = false := by
      rw [List.any_eq_false]
      intro y hy
      rw [Bool.and_eq_true, decide_eq_true_iff, WinView.onPage_iff]
      rintro ⟨h1, h2⟩
      have := l.addr_inj hx hy hq h2
      subst this
      exact absurd h1 (of_decide_eq_true (List.mem_filter.mp hx').2)
    rw [this, Bool.not_false, Bool.and_true]
  · show (s.locked q && !_) = false
    have hb : x.base = v.base := by
      apply Decidable.byContradiction
      intro hb
      exact hx' (List.mem_filter.mpr ⟨hx, decide_eq_true hb⟩)
    have : s.views.any (fun x => decide (x.base = v.base) && x.onPage s.page q) = true := by
      rw [List.any_eq_true]
      exact ⟨x, hx, by rw [Bool.and_eq_true, decide_eq_true_iff, WinView.onPage_iff]; exact ⟨hb, hq⟩⟩
    rw [this, Bool.not_true, Bool.and_false]

theorem win_unmapRing_lk {t : Target} {s : Vmap.Win} (wf : WinWf t s) (l : WinLaid t s) {ptr len : Nat} (hl : 0 < len)
    {v1 v2 : WinView} (h1 : v1 ∈ s.views) (h2 : v2 ∈ s.views) (b1 : v1.base = ptr) (b2 : v2.base = ptr + len)
    (l2 : v2.len = len) : WinLk s (s.unmapRing t ptr len).1 := by
  obtain ⟨k1, -, k3, -, -, k6⟩ := win_unmapRing_views wf l hl h1 h2 b1 b2 l2
  have hmem : ∀ x, x ∈ (s.unmapRing t ptr len).1.views ↔ x ∈ s.views ∧ ¬ (x.base = ptr ∨ x.base = ptr + len) := by
    intro x
    rw [k3, List.mem_filter, List.mem_filter, decide_eq_true_iff, decide_eq_true_iff]
    exact ⟨fun ⟨⟨a, b⟩, c⟩ => ⟨a, fun h => h.elim c b⟩, fun ⟨a, b⟩ => ⟨⟨a, fun h => b (.inr h)⟩, fun h => b (.inl h)⟩⟩
  refine ⟨k1.page, fun q h => ?_, fun x hx hx' q hq => ?_, fun x hx hx' q hq => ?_⟩
  · rw [k6, Bool.and_eq_true] at h
    exact h.1
  · have : s.views.any (fun x => decide (x.base = ptr ∨ x.base = ptr + len) && x.onPage s.page q) = false := by
      rw [List.any_eq_false]
      intro y hy
      rw [Bool.and_eq_true, decide_eq_true_iff, WinView.onPage_iff]
      rintro ⟨h1, h2⟩
      have := l.addr_inj hx hy hq h2
      subst this
      exact ((hmem x).mp hx').2 h1
    rw [k6, this, Bool.not_false, Bool.and_true]
  · have hb : x.base = ptr ∨ x.base = ptr + len := by
      apply Decidable.byContradiction
      intro hb
      exact hx' ((hmem x).mpr ⟨hx, hb⟩)
    have : s.views.any (fun x => decide (x.base = ptr ∨ x.base = ptr + len) && x.onPage s.page q) = true := by
      rw [List.any_eq_true]
      exact ⟨x, hx, by rw [Bool.and_eq_true, decide_eq_true_iff, WinView.onPage_iff]; exact ⟨hb, hq⟩⟩
    rw [k6, this, Bool.not_true, Bool.and_false]

/-! ### Steps -/

/-- Different views are apart, also in whole pages. -/
theorem _root_.Vmap.Spec.WinLaid.far {t : Target} {s : Vmap.Win} (l : WinLaid t s) {x y : WinView} (hx : x ∈ s.views)
    (hy : y ∈ s.views) (hne : x ≠ y) :
    x.base + s.roundPage x.len ≤ y.base ∨ y.base + s.roundPage y.len ≤ x.base := by
  have hap := l.apart
  generalize s.views = vs at *
  induction vs with
  | nil => cases hx
  | cons v vs ih =>
    rw [List.pairwise_cons] at hap
    rcases List.mem_cons.mp hx with rfl | hx'
    · rcases List.mem_cons.mp hy with rfl | hy'
      · exact absurd rfl hne
      · exact hap.1 y hy'
    · rcases List.mem_cons.mp hy with rfl | hy'
      · exact (hap.1 x hx').symm
      · exact ih hx' hy' hap.2

/-- What a range call on a map does, and what it is about. -/
theorem win_range_call {t : Target} {s0 : Vmap.Win} {w : WinWorld} (inv : WinInv t s0 w) {i : Nat}
    {m : MapMut} (hm : w.held i = some (.map m)) {off len : Nat} (sane : off + len < t.lim) {op : Operation}
    {s' : Vmap.Win} {r : Result Unit}
    {g : Nat → Nat → Vmap.Win × Result Unit}
    (h : (do
      let sum ← addU t off len
      if sum > m.len then return (w.s, .error (Error.input op .invalidRange))
      else
        let (ptr, len) ← w.s.sizePage.bounds t (ptrAdd t m.ptr off) len
        return g ptr len : Exec (Vmap.Win × Result Unit)) = .ok (s', r)) :
    (s' = w.s ∧ ∃ e, r = .error e) ∨ ∃ v addr sz, v ∈ w.s.views ∧ MapView s0.gran m v ∧
      WinPages w.s.page (m.ptr + off) len addr sz ∧ v.base ≤ addr ∧ addr + sz ≤ v.base + w.s.roundPage v.len ∧
      off + len ≤ m.len ∧ g addr sz = (s', r) := by
  simp only [addU_ok sane, bind, Except.bind] at h
  split at h
  · cases h; exact .inl ⟨rfl, _, rfl⟩
  · obtain ⟨v, hv, mv⟩ := inv.there i _ hm
    have mv' : MapView w.s.gran m v := by rw [inv.keeps.gran]; exact mv
    obtain ⟨addr, sz, g1, g2, g3, g4⟩ := win_range inv.wf inv.laid hv mv' (off := off) (len := len) (by omega)
    rw [g1] at h
    injection h with h
    exact .inr ⟨v, addr, sz, hv, mv, g2, g3, g4, by omega, h⟩

/-- The pages of the fewest whole pages that contain a range are those that contain a byte of it. -/
theorem _root_.Vmap.Spec.WinPages.on {u a l addr sz : Nat} (h : WinPages u a l addr sz) (hu : 0 < u) (q : Nat) :
    (∃ x, addr ≤ x ∧ x < addr + sz ∧ x / u = q) ↔ OnPage u a l q := by
  obtain ⟨⟨c, rfl⟩, ⟨d, rfl⟩, h3, h4, h5, h6⟩ := h
  constructor
  · rintro ⟨x, h1, h2, rfl⟩
    have e1 : c ≤ x / u := (Nat.le_div_iff_mul_le hu).mpr (by rw [Nat.mul_comm]; exact h1)
    have e2 : x / u < c + d := (Nat.div_lt_iff_lt_mul hu).mpr (by rw [Nat.mul_comm, Nat.mul_add]; exact h2)
    have e3 := Nat.mul_le_mul_left u e1
    have e4 := Nat.mul_le_mul_left u e2
    rw [Nat.mul_add, Nat.mul_succ] at e4
    refine ⟨?_, ?_⟩
    · rw [Nat.mul_comm]; omega
    · rw [Nat.succ_mul, Nat.mul_comm]; omega
  · rintro ⟨h1, h2⟩
    rw [Nat.mul_comm] at h1 h2
    have : c < q + 1 := Nat.lt_of_mul_lt_mul_left (Nat.lt_of_le_of_lt h3 h2)
    have := Nat.mul_le_mul_left u (show c ≤ q by omega)
    exact ⟨u * q, this, by omega, Nat.mul_div_cancel_left q hu⟩

/-- What `lock_range` does. -/
theorem win_lock_fx {t : Target} {s0 : Vmap.Win} {w : WinWorld} (inv : WinInv t s0 w) {i : Nat}
    {m : MapMut} (hm : w.held i = some (.map m)) {off len : Nat} (sane : off + len < t.lim) {s' : Vmap.Win}
    {r : Result Unit} (h : w.s.lockRange t m off len = .ok (s', r)) :
    s'.page = w.s.page ∧ s'.views = w.s.views ∧
    (∀ q, s'.locked q = true ↔ w.s.locked q = true ∨ (r = .ok () ∧ OnPage w.s.page (m.ptr + off) len q)) ∧
    (r = .ok () → ∃ v, v ∈ w.s.views ∧ MapView s0.gran m v ∧ ∀ q, OnPage w.s.page (m.ptr + off) len q →
      v.base ≤ q * w.s.page ∧ q * w.s.page < v.base + w.s.roundPage v.len) ∧
    (WinLocksIn w.s → WinLocksIn s') := by
  rcases win_range_call inv hm sane (g := w.s.lock) h with ⟨rfl, e, rfl⟩ | ⟨v, addr, sz, h1, h2, h3, h4, h5, h6, h7⟩
  · exact ⟨rfl, rfl, fun q => ⟨.inl, fun h => h.elim id fun h => (nomatch h.1)⟩, fun h => (nomatch h), id⟩
  obtain ⟨s2, r2, g1, -, g3, g4, g5, g6, -⟩ := C82_lock w.s addr sz
  rw [h7] at g1
  cases g1
  have hu := inv.wf.page_pos
  have hon := h3.on hu
  simp only [hon] at g6
  refine ⟨g4.page, g3, g6, fun _ => ⟨v, h1, h2, fun q hq => ?_⟩, fun hl a ha => ?_⟩
  · obtain ⟨x, x1, x2, rfl⟩ := (hon q).mpr hq
    have := Nat.div_mul_le_self x w.s.page
    have : addr ≤ x / w.s.page * w.s.page := by
      obtain ⟨c, hc⟩ := h3.addr_dvd
      have := (Nat.le_div_iff_mul_le hu).mpr (show c * w.s.page ≤ x by rw [Nat.mul_comm, ← hc]; exact x1)
      have := Nat.mul_le_mul_right w.s.page this
      rw [hc, Nat.mul_comm]; exact this
    omega
  · have ha' : s'.locked (a / w.s.page) = true := by rw [← g4.page]; exact ha
    rw [g3, g4.page]
    rcases (g6 _).mp ha' with ha' | ⟨ok, hq⟩
    · exact hl a ha'
    · obtain ⟨x, x1, x2, x3⟩ := (hon _).mpr hq
      obtain ⟨y, y1, y2⟩ := (g5.mp ok).2 x x1 x2
      exact ⟨y, y1, by rw [WinPageOf, ← x3]; exact y2⟩

/-- What `unlock_range` does. -/
theorem win_unlock_fx {t : Target} {s0 : Vmap.Win} {w : WinWorld} (inv : WinInv t s0 w) {i : Nat}
    {m : MapMut} (hm : w.held i = some (.map m)) {off len : Nat} (sane : off + len < t.lim) {s' : Vmap.Win}
    {r : Result Unit} (h : w.s.unlockRange t m off len = .ok (s', r)) :
    s'.page = w.s.page ∧ s'.views = w.s.views ∧
    (∀ q, s'.locked q = true ↔ w.s.locked q = true ∧ ¬ (r = .ok () ∧ OnPage w.s.page (m.ptr + off) len q)) ∧
    (r = .ok () → (∀ q, OnPage w.s.page (m.ptr + off) len q → w.s.locked q = true) ∧
      ∃ v, v ∈ w.s.views ∧ MapView s0.gran m v ∧ ∀ q, OnPage w.s.page (m.ptr + off) len q →
      v.base ≤ q * w.s.page ∧ q * w.s.page < v.base + w.s.roundPage v.len) ∧
    (WinLocksIn w.s → WinLocksIn s') := by
  rcases win_range_call inv hm sane (g := w.s.unlock) h with ⟨rfl, e, rfl⟩ | ⟨v, addr, sz, h1, h2, h3, h4, h5, h6, h7⟩
  · exact ⟨rfl, rfl, fun q => ⟨fun h => ⟨h, fun h => (nomatch h.1)⟩, fun h => h.1⟩, fun h => (nomatch h), id⟩
  obtain ⟨s2, r2, g1, -, g3, g4, g5, g6, -⟩ := C82_unlock w.s addr sz
  rw [h7] at g1
  cases g1
  have hu := inv.wf.page_pos
  have hon := h3.on hu
  simp only [hon] at g6
  refine ⟨g4.page, g3, g6, fun ok => ⟨fun q hq => ?_, v, h1, h2, fun q hq => ?_⟩, fun hl a ha => ?_⟩
  · obtain ⟨x, x1, x2, rfl⟩ := (hon q).mpr hq
    exact (g5.mp ok).2 x x1 x2
  · obtain ⟨x, x1, x2, rfl⟩ := (hon q).mpr hq
    have := Nat.div_mul_le_self x w.s.page
    have : addr ≤ x / w.s.page * w.s.page := by
      obtain ⟨c, hc⟩ := h3.addr_dvd
      have := (Nat.le_div_iff_mul_le hu).mpr (show c * w.s.page ≤ x by rw [Nat.mul_comm, ← hc]; exact x1)
      have := Nat.mul_le_mul_right w.s.page this
      rw [hc, Nat.mul_comm]; exact this
    omega
  · have ha' : s'.locked (a / w.s.page) = true := by rw [← g4.page]; exact ha
    rw [g3, g4.page]
    exact hl a ((g6 _).mp ha').1

/-- The locks, the views and the page size are the same. -/
def WinSame3 (s s' : Vmap.Win) : Prop := s'.locked = s.locked ∧ s'.views = s.views ∧ s'.page = s.page

theorem WinSame3.range {t : Target} {s s' : Vmap.Win} {m : MapMut} {off len : Nat} {op : Operation}
    {g : Nat → Nat → Vmap.Win × Result Unit} (hg : ∀ a b, WinSame3 s (g a b).1) {r : Result Unit}
    (h : (do
      let sum ← addU t off len
      if sum > m.len then return (s, .error (Error.input op .invalidRange))
      else
        let (ptr, len) ← s.sizePage.bounds t (ptrAdd t m.ptr off) len
        return g ptr len : Exec (Vmap.Win × Result Unit)) = .ok (s', r)) : WinSame3 s s' := by
  cases h1 : addU t off len with
  | error e => rw [h1] at h; cases h
  | ok sum =>
    rw [h1] at h
    simp only [bind, Except.bind] at h
    split at h
    · cases h; exact ⟨rfl, rfl, rfl⟩
    · split at h
      · cases h
      · rename_i x hx
        obtain ⟨a, b⟩ := x
        simp only [pure, Except.pure] at h
        injection h with h
        have := hg a b
        rw [h] at this
        exact this

theorem WinSame3.flush (s : Vmap.Win) (pg file len : Nat) (mode : FlushMode) :
    WinSame3 s (s.flush pg file len mode).1 := by
  unfold Win.flush Win.simple
  split
  · rename_i h
    injection h with h1 h2
    subst h1
    exact ⟨rfl, rfl, rfl⟩
  · rename_i h
    injection h with h1 h2
    subst h1
    cases mode with
    | async => exact ⟨rfl, rfl, rfl⟩
    | sync => simp only [win_wrap_fst]; exact ⟨rfl, rfl, rfl⟩

theorem WinSame3.protect (s : Vmap.Win) (pg len : Nat) (prot : Protect) :
    WinSame3 s (s.protect pg len prot).1 := by
  rw [Win.protect, win_wrap_fst, Win.virtualProtect]
  split <;> exact ⟨rfl, rfl, rfl⟩

theorem WinSame3.intoMap {t : Target} {s s' : Vmap.Win} {m : MapMut} {r : ConvertResult Map MapMut}
    (h : s.intoMap t m = .ok (s', r)) : WinSame3 s s' := by
  simp only [Win.intoMap, bind, Except.bind] at h
  split at h
  · cases h
  rename_i x _
  have := WinSame3.protect s x.1 x.2 .readWrite
  split at h
  all_goals
    rename_i h1
    cases h
    rw [h1] at this
    exact this

theorem WinSame3.intoMapMut {t : Target} {s s' : Vmap.Win} {m : Map} {r : ConvertResult MapMut Map}
    (h : s.intoMapMut t m = .ok (s', r)) : WinSame3 s s' := by
  simp only [Win.intoMapMut, bind, Except.bind] at h
  split at h
  · cases h
  rename_i x _
  have := WinSame3.protect s x.1 x.2 .readWrite
  split at h
  all_goals
    rename_i h1
    cases h
    rw [h1] at this
    exact this

theorem WinSame3.fill (s : Vmap.Win) (ptr : Nat) (mem : Nat → Byte) : WinSame3 s (WinWorld.fill s ptr mem) := by
  unfold WinWorld.fill
  split <;> exact ⟨rfl, rfl, rfl⟩

/-- One step keeps locks inside views, and does not touch those of a map it is not about. -/
theorem win_lock_step {tab : SysTable} {t : Target} {s0 : Vmap.Win} {w w' : WinWorld} (inv : WinInv t s0 w) {op : WinOp}
    (sane : op.Sane t w) (sane' : op.NoWrap t) (h : w.step tab t op = .ok w') :
    w'.s.page = w.s.page ∧ (WinLocksIn w.s → WinLocksIn w'.s) ∧
    ∀ {i m v}, WinMine s0 w i m v → WinMine s0 w' i m v → (∀ off len, op ≠ .lock i off len) →
      (∀ off len, op ≠ .unlock i off len) → ∀ q, v.On w.s.page q → w'.s.locked q = w.s.locked q := by
  have lk : ∀ {s' : Vmap.Win}, WinLk w.s s' → w'.s = s' → w'.s.page = w.s.page ∧ (WinLocksIn w.s → WinLocksIn w'.s) ∧
      ∀ {i m v}, WinMine s0 w i m v → WinMine s0 w' i m v → (∀ off len, op ≠ .lock i off len) →
      (∀ off len, op ≠ .unlock i off len) → ∀ q, v.On w.s.page q → w'.s.locked q = w.s.locked q := by
    intro s' k hs
    subst hs
    exact ⟨k.page, k.locksIn, fun a b _ _ q hq => k.keep _ a.view b.view q hq⟩
  have same : w'.s.page = w.s.page → w'.s.views = w.s.views → w'.s.locked = w.s.locked →
      w'.s.page = w.s.page ∧ (WinLocksIn w.s → WinLocksIn w'.s) ∧
      ∀ {i m v}, WinMine s0 w i m v → WinMine s0 w' i m v → (∀ off len, op ≠ .lock i off len) →
      (∀ off len, op ≠ .unlock i off len) → ∀ q, v.On w.s.page q → w'.s.locked q = w.s.locked q :=
    fun a b c => lk (WinLkAll.still ⟨c, b, a⟩).lk rfl
  have onMap : ∀ {α : Type} {i : Nat} {f : MapMut → Exec (Vmap.Win × α)},
      (∀ m s r, f m = .ok (s, r) → s.locked = w.s.locked ∧ s.views = w.s.views ∧ s.page = w.s.page) →
      w.onMap i f = .ok w' → w'.s.page = w.s.page ∧ w'.s.views = w.s.views ∧ w'.s.locked = w.s.locked := by
    intro α i f hf h
    unfold WinWorld.onMap at h
    split at h
    · rename_i m hm
      simp only [bind, Except.bind] at h
      split at h
      · cases h
      rename_i x hx
      obtain ⟨s1, r1⟩ := x
      cases h
      obtain ⟨a, b, c⟩ := hf m s1 r1 hx
      exact ⟨c, b, a⟩
    · cases h; exact ⟨rfl, rfl, rfl⟩
  have hu := inv.wf.page_pos
  have other : ∀ {i j m m' v x}, WinMine s0 w i m v → w.held j = some (.map m') → j ≠ i → x ∈ w.s.views →
      MapView s0.gran m' x → ∀ {q}, v.On w.s.page q →
      x.base ≤ q * w.s.page ∧ q * w.s.page < x.base + w.s.roundPage x.len → False := by
    intro i j m m' v x mine hj hne hx mx q hq hq'
    have hvx : v ≠ x := by
      rintro rfl
      exact hne (inv.one j i _ _ v hx hj mine.held mx mine.owns)
    have := inv.laid.far mine.view hx hvx
    have := w.s.roundPage_le hu v.len
    obtain ⟨a, b⟩ := hq
    omega
  cases op with
  | mapIf o file =>
    simp only [WinWorld.step, bind, Except.bind] at h
    split at h
    · cases h
    rename_i x hx
    obtain ⟨s', r⟩ := x
    have := (win_mapIf_lk hx).2.lk
    split at h
    · rename_i h1
      cases h1
      cases h
      exact lk this rfl
    · rename_i h1 h2
      cases h2
      cases h
      exact lk this rfl
  | alloc o =>
    simp only [WinWorld.step, bind, Except.bind] at h
    split at h
    · cases h
    rename_i x hx
    obtain ⟨s', r⟩ := x
    have := (win_alloc_lk hx).2.lk
    cases r <;> (cases h; exact lk this rfl)
  | newRing hint =>
    simp only [WinWorld.step, bind, Except.bind, Win.ringNew] at h
    split at h
    · cases h
    rename_i x hx
    split at hx
    · cases hx
    split at hx
    · cases hx
    rename_i y hy
    obtain ⟨s', r⟩ := y
    have := (win_mapRing_lk hu (fun v hv => (inv.wf.views v hv).1) hy).lk
    cases r <;> (cases hx; cases h; exact lk this rfl)
  | newInf hint =>
    simp only [WinWorld.step, bind, Except.bind, Win.infNew] at h
    split at h
    · cases h
    rename_i x hx
    split at hx
    · cases hx
    split at hx
    · cases hx
    rename_i y hy
    obtain ⟨s', r⟩ := y
    have := (win_mapRing_lk hu (fun v hv => (inv.wf.views v hv).1) hy).lk
    cases r <;> (cases hx; cases h; exact lk this rfl)
  | drop i =>
    have ring : ∀ ptr len, (∃ v1 v2, v1 ∈ w.s.views ∧ v2 ∈ w.s.views ∧ v1.base = ptr ∧
        v2.base = ptr + len ∧ v1.len = len ∧ v2.len = len ∧ 0 < len ∧ v1.sec = v2.sec ∧ v1.off = 0 ∧ v2.off = 0 ∧
        v1.access = { read := true, write := true } ∧ v2.access = { read := true, write := true }) →
        WinLk w.s (w.s.unmapRing t ptr len).1 := by
      rintro ptr len ⟨v1, v2, h1, h2, b1, b2, l1, l2, hl, -⟩
      exact win_unmapRing_lk inv.wf inv.laid hl h1 h2 b1 b2 l2
    simp only [WinWorld.step] at h
    split at h
    · rename_i m hm
      simp only [bind, Except.bind] at h
      split at h
      · cases h
      · rename_i s' hs
        cases h
        by_cases h0 : 0 < m.len
        · obtain ⟨v, hv, mv⟩ := inv.there i _ hm
          rw [← inv.keeps.gran] at mv
          exact lk (win_dropMap_lk inv.wf inv.laid h0 hv mv hs) rfl
        · rw [Win.dropMap, if_neg h0] at hs
          cases hs
          exact lk (WinLkAll.refl _).lk rfl
    · rename_i r hr
      cases h
      exact lk (ring _ _ (inv.there i _ hr)) rfl
    · rename_i r hr
      cases h
      exact lk (ring _ _ (inv.there i _ hr)) rfl
    · cases h; exact lk (WinLkAll.refl _).lk rfl
  | flush i file off len mode =>
    obtain ⟨a, b, c⟩ := onMap (fun m s r hf => WinSame3.range (fun a b => WinSame3.flush w.s a file b mode) hf) h
    exact same a b c
  | advise i off len adv =>
    obtain ⟨a, b, c⟩ := onMap (fun m s r hf => WinSame3.range (g := fun a b => w.s.advise a b adv)
      (fun a b => ⟨rfl, rfl, rfl⟩) hf) h
    exact same a b c
  | lock i off len =>
    simp only [WinWorld.step, WinWorld.onMap] at h
    split at h
    · rename_i m' hm'
      simp only [bind, Except.bind] at h
      split at h
      · cases h
      rename_i x hx
      obtain ⟨s1, r1⟩ := x
      cases h
      obtain ⟨g1, g2, g3, g4, g5⟩ := win_lock_fx inv hm' sane' hx
      refine ⟨g1, g5, fun {j m v} a b n1 _ q hq => ?_⟩
      rw [Bool.eq_iff_iff]
      show s1.locked q = true ↔ _
      rw [g3]
      refine ⟨fun h => h.elim id fun ⟨ok, hp⟩ => ?_, .inl⟩
      obtain ⟨x, x1, x2, x3⟩ := g4 ok
      exact (other a hm' (fun e => n1 off len (by rw [e])) x1 x2 hq (x3 q hp)).elim
    · cases h; exact same rfl rfl rfl
  | unlock i off len =>
    simp only [WinWorld.step, WinWorld.onMap] at h
    split at h
    · rename_i m' hm'
      simp only [bind, Except.bind] at h
      split at h
      · cases h
      rename_i x hx
      obtain ⟨s1, r1⟩ := x
      cases h
      obtain ⟨g1, g2, g3, g4, g5⟩ := win_unlock_fx inv hm' sane' hx
      refine ⟨g1, g5, fun {j m v} a b _ n1 q hq => ?_⟩
      rw [Bool.eq_iff_iff]
      show s1.locked q = true ↔ _
      rw [g3]
      refine ⟨fun h => h.1, fun h => ⟨h, fun ⟨ok, hp⟩ => ?_⟩⟩
      obtain ⟨x, x1, x2, x3⟩ := (g4 ok).2
      exact other a hm' (fun e => n1 off len (by rw [e])) x1 x2 hq (x3 q hp)
    · cases h; exact same rfl rfl rfl
  | intoMapMut i =>
    obtain ⟨a, b, c⟩ := onMap (fun m s r hf => WinSame3.intoMapMut hf) h
    exact same a b c
  | intoMap i =>
    obtain ⟨a, b, c⟩ := onMap (fun m s r hf => WinSame3.intoMap hf) h
    exact same a b c
  | set i idx b =>
    simp only [WinWorld.step] at h
    split at h
    · simp only [bind, Except.bind] at h
      split at h
      · cases h
      · rename_i s' hs
        cases h
        unfold Win.set at hs
        split at hs
        · obtain ⟨x, hx⟩ := win_store_bare hs
          subst hx
          exact same rfl rfl rfl
        · cases hs
    · cases h; exact same rfl rfl rfl
  | ringUse i rpos wpos mem =>
    simp only [WinWorld.step] at h
    split at h
    · cases h
      exact lk (WinLkAll.still (WinSame3.fill w.s _ mem)).lk rfl
    · cases h; exact same rfl rfl rfl
  | infUse i rlen wpos mem =>
    simp only [WinWorld.step] at h
    split at h
    · cases h
      exact lk (WinLkAll.still (WinSame3.fill w.s _ mem)).lk rfl
    · cases h; exact same rfl rfl rfl
  | files f d => cases h; exact same rfl rfl rfl

/-- The page of a byte of a map is one of the map's view. -/
theorem win_page_on {t : Target} {s : Vmap.Win} (wf : WinWf t s) {m : MapMut} {v : WinView} (mv : MapView s.gran m v)
    {j : Nat} (hj : j < m.len) : v.On s.page ((m.ptr + j) / s.page) := by
  obtain ⟨a, b, c, d⟩ := mv
  have h1 := Nat.div_mul_le_self (m.ptr + j) s.page
  obtain ⟨k, hk⟩ := Nat.dvd_trans wf.page_dvd a
  have := (Nat.le_div_iff_mul_le wf.page_pos).mpr (show k * s.page ≤ m.ptr + j by rw [Nat.mul_comm, ← hk]; omega)
  have := Nat.mul_le_mul_right s.page this
  rw [Nat.mul_comm, ← hk] at this
  exact ⟨this, by omega⟩

theorem win_locksIn_lock {s : Vmap.Win} (h : WinLocksIn s) (a l : Nat) : WinLocksIn (s.lock a l).1 := by
  obtain ⟨s2, r2, g1, -, g3, g4, g5, g6, -⟩ := C82_lock s a l
  rw [g1]
  intro x hx
  have hx' : s2.locked (x / s.page) = true := by rw [← g4.page]; exact hx
  show ∃ v, v ∈ s2.views ∧ WinPageOf s2.page v x
  rw [g3, g4.page]
  rcases (g6 _).mp hx' with hx' | ⟨ok, y, y1, y2, y3⟩
  · exact h x hx'
  · obtain ⟨v, v1, v2⟩ := (g5.mp ok).2 y y1 y2
    exact ⟨v, v1, by rw [WinPageOf, ← y3]; exact v2⟩

theorem win_locksIn_unlock {s : Vmap.Win} (h : WinLocksIn s) (a l : Nat) : WinLocksIn (s.unlock a l).1 := by
  obtain ⟨s2, r2, g1, -, g3, g4, g5, g6, -⟩ := C82_unlock s a l
  rw [g1]
  intro x hx
  have hx' : s2.locked (x / s.page) = true := by rw [← g4.page]; exact hx
  show ∃ v, v ∈ s2.views ∧ WinPageOf s2.page v x
  rw [g3, g4.page]
  exact h x ((g6 _).mp hx').1

theorem win_locksIn_range {t : Target} {s s' : Vmap.Win} (l : WinLocksIn s) {m : MapMut} {off len : Nat} {op : Operation}
    {g : Nat → Nat → Vmap.Win × Result Unit} (hg : ∀ a b, WinLocksIn (g a b).1) {r : Result Unit}
    (h : (do
      let sum ← addU t off len
      if sum > m.len then return (s, .error (Error.input op .invalidRange))
      else
        let (ptr, len) ← s.sizePage.bounds t (ptrAdd t m.ptr off) len
        return g ptr len : Exec (Vmap.Win × Result Unit)) = .ok (s', r)) : WinLocksIn s' := by
  cases h1 : addU t off len with
  | error e => rw [h1] at h; cases h
  | ok sum =>
    rw [h1] at h
    simp only [bind, Except.bind] at h
    split at h
    · cases h; exact l
    · split at h
      · cases h
      · rename_i x hx
        obtain ⟨a, b⟩ := x
        simp only [pure, Except.pure] at h
        injection h with h
        have := hg a b
        rw [h] at this
        exact this

theorem win_locksIn_onMap {α : Type} {w w' : WinWorld} (l : WinLocksIn w.s) {i : Nat} {f : MapMut → Exec (Vmap.Win × α)}
    (hf : ∀ m s r, f m = .ok (s, r) → WinLocksIn s) (h : w.onMap i f = .ok w') : WinLocksIn w'.s := by
  unfold WinWorld.onMap at h
  split at h
  · rename_i m hm
    simp only [bind, Except.bind] at h
    split at h
    · cases h
    rename_i x hx
    obtain ⟨s1, r1⟩ := x
    cases h
    exact hf m s1 r1 hx
  · cases h; exact l

/-- Only pages of views are locked, at every point of every program. -/
theorem WinReach.locksIn {tab : SysTable} {t : Target} {s0 : Vmap.Win} (wf : WinWf t s0) (laid : WinLaid t s0)
    (l : WinLocksIn s0) {w : WinWorld} (h : WinReach tab t s0 w) : WinLocksIn w.s := by
  induction h with
  | start => exact l
  | @step w w' op before sane st ih =>
    have inv := before.inv wf laid
    by_cases c1 : ∃ i off len, op = .lock i off len
    · obtain ⟨i, off, len, rfl⟩ := c1
      exact win_locksIn_onMap ih (fun m s r hf => win_locksIn_range ih (fun a b => win_locksIn_lock ih a b) hf) st
    by_cases c2 : ∃ i off len, op = .unlock i off len
    · obtain ⟨i, off, len, rfl⟩ := c2
      exact win_locksIn_onMap ih (fun m s r hf => win_locksIn_range ih (fun a b => win_locksIn_unlock ih a b) hf) st
    refine (win_lock_step inv sane ?_ st).2.1 ih
    cases op <;> first
      | trivial
      | exact absurd ⟨_, _, _, rfl⟩ c1
      | exact absurd ⟨_, _, _, rfl⟩ c2

/-- What is known of a map when it is made. -/
theorem WinNewMap.inv {tab : SysTable} {t : Target} {s0 : Vmap.Win} (wf : WinWf t s0) (laid : WinLaid t s0)
    {w : WinWorld} {i : Nat} {m : MapMut} {p : Protect} (h : WinNewMap tab t s0 w i m p) :
    WinReach tab t s0 w ∧ ∃ v, WinMine s0 w i m v ∧ WinAllows p v.access ∧
      (WinLocksIn s0 → ∀ q, v.On w.s.page q → w.s.locked q = false) := by
  have key : ∀ {w0 : WinWorld} {s1 : Vmap.Win} {m : MapMut} {v : WinView} {file : Option Nat} {off : Nat} {p : Protect},
      WinReach tab t s0 w0 → s1.locked = w0.s.locked ∧ WinLkAll w0.s s1 → WinMap t w0.s s1 m file off p v →
      WinLocksIn s0 → ∀ q, v.On s1.page q → s1.locked q = false := by
    intro w0 s1 m v file off p reach lk mv l q hq
    have inv := reach.inv wf laid
    have hu := inv.wf.page_pos
    rw [lk.1, ← Bool.not_eq_true]
    intro hl
    rw [lk.2.page] at hq
    obtain ⟨x, x1, x2⟩ := reach.locksIn wf laid l (q * w0.s.page)
      (show w0.s.locked (q * w0.s.page / w0.s.page) = true by rw [Nat.mul_div_cancel _ hu]; exact hl)
    rw [WinPageOf, Nat.mul_div_cancel _ hu] at x2
    have := mv.room.2.2 x x1
    have := w0.s.roundPage_le hu v.len
    have := w0.s.roundPage_le hu x.len
    obtain ⟨a, b⟩ := hq
    omega
  cases h with
  | @map w0 opts file s1 m reach fits call =>
    obtain ⟨r1, v, mine, -, acc, -⟩ := win_made_map wf laid reach fits call
    refine ⟨r1, v, mine, acc, fun l q hq => ?_⟩
    have inv := reach.inv wf laid
    obtain ⟨-, ⟨e, he, -⟩ | ⟨n, hn, now, g⟩⟩ := win_mapIf_bytes inv.wf fits call
    · cases he
    obtain ⟨g1, g2, v', mv, own⟩ := g m rfl
    have hv' : v' = v := by
      have h1 : v' ∈ s1.views := by rw [mv.views]; exact List.mem_cons_self
      have inv' := r1.inv wf laid
      obtain ⟨i1, i2, -⟩ := mv.inside
      obtain ⟨a1, a2, -⟩ := mv.start
      exact inv'.laid.base_inj h1 mine.view (win_mapView_base (u := s0.gran) (m := m)
        (by rw [← inv.keeps.gran]; exact ⟨a1, i1, a2, i2⟩) mine.owns)
    subst hv'
    exact key reach (win_mapIf_lk call) mv l q hq
  | @alloc w0 opts s1 m reach fits call =>
    obtain ⟨r1, v, mine, -, acc, -⟩ := win_made_alloc wf laid reach fits call
    refine ⟨r1, v, mine, acc, fun l q hq => ?_⟩
    have inv := reach.inv wf laid
    obtain ⟨s2, r2, g1, g2, -, g4, -⟩ := C81_alloc_partial t inv.wf fits
    rw [call] at g1
    cases g1
    obtain ⟨-, -, ⟨v', mv⟩, -⟩ := g4 m rfl
    have hv' : v' = v := by
      have h1 : v' ∈ s1.views := by rw [mv.views]; exact List.mem_cons_self
      have inv' := r1.inv wf laid
      obtain ⟨i1, i2, -⟩ := mv.inside
      obtain ⟨a1, a2, -⟩ := mv.start
      exact inv'.laid.base_inj h1 mine.view (win_mapView_base (u := s0.gran) (m := m)
        (by rw [← inv.keeps.gran]; exact ⟨a1, i1, a2, i2⟩) mine.owns)
    subst hv'
    exact key reach (win_alloc_lk call) mv l q hq

/-- Along the calls on a map. -/
theorem WinSettings.inv {tab : SysTable} {t : Target} {s0 : Vmap.Win} (wf : WinWf t s0) (laid : WinLaid t s0)
    (ls : WinLocksIn s0) {w w' : WinWorld} {i : Nat} {m : MapMut} {p : Protect} (made : WinNewMap tab t s0 w i m p)
    {l : Nat → Prop} (h : WinSettings tab t i m w w' l) :
    WinReach tab t s0 w' ∧ ∃ v, WinMine s0 w' i m v ∧ ∀ j, j < m.len → (WinLocked w'.s (m.ptr + j) ↔ l j) := by
  obtain ⟨r0, v, mine, -, un⟩ := made.inv wf laid
  suffices H : WinReach tab t s0 w' ∧ WinMine s0 w' i m v ∧ ∀ j, j < m.len → (WinLocked w'.s (m.ptr + j) ↔ l j) from
    ⟨H.1, v, H.2⟩
  induction h with
  | made =>
    refine ⟨r0, mine, fun j hj => ⟨fun h => ?_, False.elim⟩⟩
    have inv := r0.inv wf laid
    rw [WinLocked, un ls _ (win_page_on inv.wf (by rw [inv.keeps.gran]; exact mine.owns) hj)] at h
    cases h
  | @lock w1 s2 r l off len before sane call ih =>
    obtain ⟨r1, m1, h1⟩ := ih
    have inv := r1.inv wf laid
    have st : w1.step tab t (.lock i off len) = .ok (w1.run s2) := by
      simp only [WinWorld.step, WinWorld.onMap, m1.held, call, bind, Except.bind, pure, Except.pure]
    have n := inv.step (op := .lock i off len) trivial st
    obtain ⟨g1, -, g3, -⟩ := win_lock_fx inv m1.held sane call
    refine ⟨.step (op := .lock i off len) r1 trivial st, (m1.step inv n (x := .map m) m1.held).2, fun j hj => ?_⟩
    show s2.locked ((m.ptr + j) / s2.page) = true ↔ _
    rw [g1, g3]
    exact or_congr (h1 j hj) Iff.rfl
  | @unlock w1 s2 r l off len before sane call ih =>
    obtain ⟨r1, m1, h1⟩ := ih
    have inv := r1.inv wf laid
    have st : w1.step tab t (.unlock i off len) = .ok (w1.run s2) := by
      simp only [WinWorld.step, WinWorld.onMap, m1.held, call, bind, Except.bind, pure, Except.pure]
    have n := inv.step (op := .unlock i off len) trivial st
    obtain ⟨g1, -, g3, -⟩ := win_unlock_fx inv m1.held sane call
    refine ⟨.step (op := .unlock i off len) r1 trivial st, (m1.step inv n (x := .map m) m1.held).2, fun j hj => ?_⟩
    show s2.locked ((m.ptr + j) / s2.page) = true ↔ _
    rw [g1, g3]
    exact and_congr (h1 j hj) Iff.rfl
  | @other w1 w2 l op before sane sane' st held n1 n2 ih =>
    obtain ⟨r1, m1, h1⟩ := ih
    have inv := r1.inv wf laid
    have n := inv.step sane st
    have m2 := (m1.step inv n held).2
    obtain ⟨g1, -, g3⟩ := win_lock_step inv sane sane' st
    refine ⟨.step r1 sane st, m2, fun j hj => ?_⟩
    have hon := win_page_on inv.wf (by rw [inv.keeps.gran]; exact m1.owns) hj
    rw [WinLocked, g1, g3 m1 m2 n1 n2 _ hon]
    exact h1 j hj

end Vmap
