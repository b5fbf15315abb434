import Verif.Proofs.WorldInv
import Verif.Props.InfiniteRing
import Verif.Props.Open
/- Helper lemmas: every step of a program preserves the invariant. -/
namespace Vmap
open Kernel Spec

/-- What every step achieves. -/
structure Step (t : Target) (k0 : Kernel) (w w' : World) (tgt fd : Option Nat) (quiet : Bool) :
    Prop where
  inv : World.Inv t k0 w'
  fx : ∃ S, Effect w.k w'.k S (fun d => fd = some d) ∧ ∀ j h, w.held j = some h → tgt ≠ some j →
    w'.held j = some h ∧ ∀ q, h.OnPage w.k.page q → ¬ S q
  quiet : quiet = true → ∀ o, o < w.k.fresh → w'.k.data o = w.k.data o ∧ w'.k.size o = w.k.size o

/-- The step succeeds, and achieves it. -/
def Good (t : Target) (k0 : Kernel) (w : World) (tgt fd : Option Nat) (quiet : Bool)
    (x : Exec World) : Prop := ∃ w', x = .ok w' ∧ Step t k0 w w' tgt fd quiet

section
variable {t : Target} {k0 : Kernel} {w : World} {fd : Option Nat}

theorem Good.none (v : w.Inv t k0) {k' : Kernel} (wf' : Wf t k') (fx : Effect w.k k' noPage (fun d => fd = some d))
    {tgt quiet} (hq : quiet = true → ∀ o, o < w.k.fresh →
      k'.data o = w.k.data o ∧ k'.size o = w.k.size o) :
    Good t k0 w tgt fd quiet (.ok (w.run k')) :=
  ⟨_, rfl, v.none wf' fx, ⟨noPage, fx, fun _ _ hj _ => ⟨hj, fun _ _ => id⟩⟩, hq⟩

theorem Good.put (v : w.Inv t k0) {k' : Kernel} {h : Handle} (wf' : Wf t k')
    (fx : Effect w.k k' (h.OnPage w.k.page) (fun d => fd = some d)) (l : h.Live t k')
    (fr : ∀ q, h.OnPage w.k.page q → w.k.pt q = Option.none) {tgt quiet}
    (hq : quiet = true → ∀ o, o < w.k.fresh →
      k'.data o = w.k.data o ∧ k'.size o = w.k.size o) :
    Good t k0 w tgt fd quiet (.ok (w.put k' h)) := by
  refine ⟨_, rfl, v.put wf' fx l fr, ⟨_, fx, ?_⟩, hq⟩
  intro j x hj _
  constructor
  · have : j ≠ w.next := by
      intro hn
      rw [v.unused j (by omega)] at hj; cases hj
    simp only [World.put, if_neg this]; exact hj
  · intro q h1 h2
    obtain ⟨e, he⟩ := (v.live j x hj).mapped v.wf h1
    rw [fr q h2] at he; cases he

theorem Good.change (v : w.Inv t k0) {i : Nat} {h h' : Handle} {k' : Kernel}
    (hi : w.held i = some h)
    (hb : h'.base = h.base) (hl : h'.bytes = h.bytes) (wf' : Wf t k')
    (fx : Effect w.k k' (h.OnPage w.k.page) (fun d => fd = some d)) (l : h'.Live t k') {quiet}
    (hq : quiet = true → ∀ o, o < w.k.fresh →
      k'.data o = w.k.data o ∧ k'.size o = w.k.size o) :
    Good t k0 w (some i) fd quiet (.ok (w.upd k' i (some h'))) := by
  refine ⟨_, rfl, v.change hi hb hl wf' fx l, ⟨_, fx, ?_⟩, hq⟩
  intro j x hj hne
  have hne : j ≠ i := fun hh => hne (by rw [hh])
  refine ⟨by simp only [World.upd, if_neg hne]; exact hj, ?_⟩
  rw [v.page]
  exact v.sep j i x h hne hj hi

theorem Good.same (v : w.Inv t k0) {i : Nat} {h : Handle} {k' : Kernel} (hi : w.held i = some h)
    (wf' : Wf t k') (fx : Effect w.k k' (h.OnPage w.k.page) (fun d => fd = some d)) (l : h.Live t k') {quiet}
    (hq : quiet = true → ∀ o, o < w.k.fresh →
      k'.data o = w.k.data o ∧ k'.size o = w.k.size o) :
    Good t k0 w (some i) fd quiet (.ok (w.run k')) := by
  rw [← World.Inv.upd_self hi]; exact Good.change v hi rfl rfl wf' fx l hq

theorem Good.drop (v : w.Inv t k0) {i : Nat} {h : Handle} {k' : Kernel} (hi : w.held i = some h)
    (wf' : Wf t k') (fx : Effect w.k k' (h.OnPage w.k.page) (fun d => fd = some d))
    (gn : ∀ q, h.OnPage w.k.page q → k'.pt q = Option.none) {quiet}
    (hq : quiet = true → ∀ o, o < w.k.fresh →
      k'.data o = w.k.data o ∧ k'.size o = w.k.size o) :
    Good t k0 w (some i) fd quiet (.ok (w.upd k' i Option.none)) := by
  refine ⟨_, rfl, v.drop hi wf' fx gn, ⟨_, fx, ?_⟩, hq⟩
  intro j x hj hne
  have hne : j ≠ i := fun hh => hne (by rw [hh])
  refine ⟨by simp only [World.upd, if_neg hne]; exact hj, ?_⟩
  rw [v.page]
  exact v.sep j i x h hne hj hi

theorem Good.refl (v : w.Inv t k0) {tgt quiet} : Good t k0 w tgt fd quiet (.ok w) :=
  Good.none v v.wf (Effect.refl _ _ _) (fun _ _ _ => ⟨rfl, rfl⟩)

theorem live_created {k k' : Kernel} {m : MapMut} {o off sh mw prot p n}
    (hp : k'.page = k.page) (c : Created t k k' m.ptr m.len o off sh mw prot p n) :
    (Handle.map m).Live t k' := by
  refine ⟨p, n, by rw [hp]; exact c.pages, ?_⟩
  intro q h1 h2
  obtain ⟨e, he, -⟩ := c.mapped q h1 h2
  exact ⟨e, he⟩

theorem close_effect (k : Kernel) (fd : Nat) (S) :
    Effect k (k.close fd) S (fun d => some fd = some d) := by
  refine Effect.same (by rfl) (by rfl) (by rfl) (by rfl) ?_ (by rfl) (by exact Nat.le_refl _) (by rfl)
    _ _ (by exact Nat.le_refl _) (fun d _ hd => if_neg (fun h => hd (by rw [h])))
  intro d f hd
  have hd : (if d = fd then Option.none else k.fds d) = some f := hd
  split at hd
  · cases hd
  · exact hd

theorem step_mapIf (tab : SysTable) (v : w.Inv t k0) {o : Options} (hf : Fits t o) (fd : Nat) :
    Good t k0 w Option.none (some fd) false (w.step tab t (.mapIf o fd)) := by
  obtain ⟨k', r, h1, h2⟩ := mapIf_keeps tab v.wf hf (fd := fd)
  simp only [World.step, h1, bind, Except.bind, pure, Except.pure]
  by_cases hr : ∀ m, r ≠ .ok (some m)
  · have fx : Effect w.k k' noPage _ := h2.effect (fun m hm => absurd hm (hr m))
    have g : Good t k0 w Option.none (some fd) false (.ok (w.run k')) :=
      Good.none v h2.wf fx (fun h => by cases h)
    cases r with
    | error e => exact g
    | ok x =>
      cases x with
      | none => exact g
      | some m => exact absurd rfl (hr m)
  · obtain ⟨m, hm⟩ : ∃ m, r = .ok (some m) := Classical.byContradiction fun hn =>
      hr (fun m hm => hn ⟨m, hm⟩)
    subst hm
    obtain ⟨f, p, n, -, -, -, -, c⟩ := h2.made m rfl
    refine Good.put v h2.wf (h2.effect ?_) (live_created h2.page c) ?_ (fun h => by cases h)
    · intro m' hm' q hq
      injection hm' with hm'; injection hm' with hm'; subst hm'
      exact hq
    · intro q hq
      obtain ⟨a, b⟩ := (onPage_iff c.pages q).mp hq
      exact c.free q a b

theorem step_openIf (tab : SysTable) (v : w.Inv t k0) {o : Options} (hf : Fits t o)
    (path : String) : Good t k0 w Option.none Option.none false (w.step tab t (.openIf o path)) := by
  have ho := open_outcome tab w.k o.openOptions path
  generalize hx : o.openOptions.open tab w.k path = x at ho
  obtain ⟨k1, r1⟩ := x
  simp only at ho
  have w1 := ho.wf v.wf
  obtain ⟨p1, -, -, -⟩ := ho.handed
  have hpg : k1.page = w.k.page := (ho.effect noPage noPage).page
  have hdk : k1.disk = w.k.disk := by
    clear hx
    cases ho with
    | refused => rfl
    | failed => rfl
    | existing _ _ _ _ _ st => rw [st]
    | created => rfl
  cases r1 with
  | error e =>
    simp only [World.step, Options.openIf, hx, bind, Except.bind, pure, Except.pure]
    exact Good.none v w1 (ho.effect _ _) (fun h => by cases h)
  | ok fd =>
    obtain ⟨k', r, h1, h2⟩ := mapIf_keeps tab w1 hf (fd := fd)
    simp only [World.step, Options.openIf, hx, h1, bind, Except.bind, pure, Except.pure]
    have hfd : w.k.nextFd ≤ fd := by
      clear hx
      cases ho with
      | existing => exact Nat.le_refl _
      | created => exact Nat.le_refl _
    have fx : ∀ S : Nat → Prop,
        (∀ m, r = .ok (some m) → ∀ q, OnPage k1.page m.ptr m.len q → S q) →
        Effect w.k k' S (fun d => Option.none = some d) := by
      intro S hS
      exact (ho.effect S _).trans v.wf (h2.effect hS) (fun d hd => by cases hd; exact .inr hfd)
        (fun o i _ => .inl (by rw [h2.disk, hdk]))
    cases r with
    | error e =>
      refine Good.none v (h2.wf.close fd) ?_ (fun h => by cases h)
      refine (fx noPage (fun m hm => by cases hm)).trans v.wf (close_effect k' fd noPage)
        (fun d hd => by cases hd; exact .inr hfd) ?_
      intro o i _
      exact .inl (by show k'.disk o i = _; rw [h2.disk, hdk])
    | ok x =>
      cases x with
      | none =>
        exact Good.none v h2.wf (fx noPage (fun m hm => by injection hm with hm; cases hm))
          (fun h => by cases h)
      | some m =>
        obtain ⟨f, p, n, -, -, -, -, c⟩ := h2.made m rfl
        refine Good.put v h2.wf (fx _ ?_) (live_created h2.page c) ?_ (fun h => by cases h)
        · intro m' hm' q hq
          injection hm' with hm'; injection hm' with hm'; subst hm'
          rw [hpg] at hq
          exact hq
        · intro q hq
          have hq : OnPage w.k.page m.ptr m.len q := hq
          rw [← hpg] at hq
          obtain ⟨a, b⟩ := (onPage_iff c.pages q).mp hq
          rw [← p1]
          exact c.free q a b

theorem step_alloc (tab : SysTable) (v : w.Inv t k0) {o : Options}
    (hf : AllocFits t w.k.page (o.offset % w.k.page) o.len) :
    Good t k0 w Option.none Option.none true (w.step tab t (.alloc o)) := by
  obtain ⟨len, -, h, -⟩ := alloc_cases v.wf o hf
  rcases h with ⟨e, he⟩ | ⟨p, k', -, -, -, -, hk, wf', c, he⟩
  · simp only [World.step, he, bind, Except.bind, pure, Except.pure]
    refine Good.none v (by exact v.wf.same rfl rfl rfl rfl rfl rfl) ?_ (by exact fun _ _ _ => ⟨rfl, rfl⟩)
    exact Effect.same (by rfl) (by rfl) (by rfl) (by rfl) (by exact fun _ _ h => h) (by rfl)
      (by exact Nat.le_refl _) (by rfl) _ _ (by exact Nat.le_refl _) (by exact fun _ _ _ => rfl)
  · simp only [World.step, he, bind, Except.bind, pure, Except.pure]
    have hd : ∀ x, x < w.k.fresh → x ≠ w.k.fresh ∧ k'.data x = w.k.data x ∧
        k'.size x = w.k.size x := by
      intro x hx
      have hne : x ≠ w.k.fresh := by omega
      subst hk
      exact ⟨hne, funext fun _ => if_neg hne, if_neg hne⟩
    refine Good.put v wf' ?_ (live_created (by subst hk; rfl) c) ?_
      (fun _ x hx => (hd x hx).2)
    · refine Kernel.Created.effect (S := (Handle.map _).OnPage w.k.page) c (fun q hq => hq)
        (by subst hk; rfl) (by subst hk; exact Nat.le_succ _) (by subst hk; rfl) (by subst hk; rfl)
        (by subst hk; rfl) (by subst hk; rfl) ?_
      intro D x _ hx
      exact hd x hx.old
    · intro q hq
      obtain ⟨a, b⟩ := (onPage_iff c.pages q).mp hq
      exact c.free q a b

theorem step_close (tab : SysTable) (v : w.Inv t k0) (fd : Nat) :
    Good t k0 w Option.none (some fd) true (w.step tab t (.close fd)) := by
  exact Good.none v (v.wf.close fd) (close_effect _ fd _) (fun _ _ _ => ⟨rfl, rfl⟩)

theorem step_pwrite (tab : SysTable) (v : w.Inv t k0) (fd i : Nat) (b : Byte) :
    Good t k0 w Option.none (some fd) false (w.step tab t (.pwrite fd i b)) := by
  simp only [World.step]
  cases hf : w.k.fds fd with
  | none => exact Good.refl v
  | some f =>
    exact Good.none v (v.wf.setByte _ _ _)
      (Effect.setByte _ _ _ (fun D x hD hx => (hx.fds fd f (hD fd rfl) hf).symm)) (fun h => by cases h)

theorem step_writeBack (tab : SysTable) (v : w.Inv t k0) (sel : Nat → Nat → Bool) :
    Good t k0 w Option.none Option.none true (w.step tab t (.writeBack sel)) := by
  refine Good.none v (by exact v.wf.same rfl rfl rfl rfl rfl rfl) ?_ (by exact fun _ _ _ => ⟨rfl, rfl⟩)
  refine ⟨rfl, Nat.le_refl _, fun _ _ => rfl, fun _ _ _ h => ⟨rfl, rfl, ?_⟩, ?_, Nat.le_refl _,
    fun _ _ _ => rfl⟩
  · exact ⟨h.old, h.fds, h.names, h.pages⟩
  · intro o i _
    show (if sel o i = true then _ else _) = _ ∨ (if sel o i = true then _ else _) = _
    split
    · exact .inr rfl
    · exact .inl rfl

/-- A range call on a map. -/
theorem step_range (v : w.Inv t k0) {i off len : Nat} {op : Operation} (hl : off + len < t.lim)
    (sys : Nat → Nat → Kernel × Result Unit)
    (hs : ∀ P N, ∃ k' r, sys (P * w.k.page) (N * w.k.page) = (k', r) ∧ OnlyRange w.k k' P N ∧
      ∀ o i, k'.disk o i = w.k.disk o i ∨ k'.disk o i = w.k.data o i) :
    Good t k0 w (some i) Option.none true (w.onMap i (fun m => rangeOp t w.k m off len op sys)) := by
  unfold World.onMap
  cases hi : w.held i with
  | none => exact Good.refl v
  | some h =>
    cases h with
    | ring r n => exact Good.refl v
    | inf r n => exact Good.refl v
    | map m =>
      have hlive := v.live i _ hi
      obtain ⟨p, n, g⟩ := hlive
      dsimp only
      by_cases hin : off + len ≤ m.len
      · rw [rangeOp_in v.wf g.pages hin]
        obtain ⟨-, -, h1, h2, -⟩ := range_bounds v.wf g.pages hin
        obtain ⟨k', r, e1, e2, e3⟩ := hs (pg w.k (m.ptr + off)) (npg w.k (m.ptr + off) len)
        rw [e1]
        refine Good.same v hi (e2.wf v.wf) (e2.effect e3 ?_) ⟨p, n, g.onlyRange e2⟩
          (fun _ o _ => by rw [e2.data, e2.size]; exact ⟨rfl, rfl⟩)
        intro q a b
        exact (onPage_iff g.pages q).mpr ⟨by omega, by omega⟩
      · rw [rangeOp_out (by omega) hl]
        exact Good.refl v

theorem step_flush (tab : SysTable) (v : w.Inv t k0) {i off len : Nat} (hl : off + len < t.lim)
    (mode : FlushMode) : Good t k0 w (some i) Option.none true (w.step tab t (.flush i off len mode)) := by
  refine step_range v hl (fun p l => Unix.flush w.k p l mode) ?_
  intro P N
  obtain ⟨k', r, h1, -, h2, -, h3, -⟩ := flush_fx w.k v.wf.page_pos P N mode
  exact ⟨k', r, h1, h2, h3⟩

theorem step_advise (tab : SysTable) (v : w.Inv t k0) {i off len : Nat} (hl : off + len < t.lim)
    (adv : Advise) : Good t k0 w (some i) Option.none true (w.step tab t (.advise i off len adv)) := by
  refine step_range v hl (fun p l => Unix.advise w.k p l adv) ?_
  intro P N
  obtain ⟨k', r, h1, -, h2, h3, -⟩ := advise_fx w.k v.wf.page_pos P N adv
  exact ⟨k', r, h1, h2, fun o i => .inl (by rw [h3])⟩

theorem step_lock (tab : SysTable) (v : w.Inv t k0) {i off len : Nat} (hl : off + len < t.lim) :
    Good t k0 w (some i) Option.none true (w.step tab t (.lock i off len)) := by
  refine step_range v hl (fun p l => Unix.lock w.k p l) ?_
  intro P N
  obtain ⟨k', r, h1, -, h2, h3, -⟩ := mlock_fx w.k v.wf.page_pos P N true .lock
  exact ⟨k', r, h1, h2, fun o i => .inl (by rw [h3])⟩

theorem step_unlock (tab : SysTable) (v : w.Inv t k0) {i off len : Nat} (hl : off + len < t.lim) :
    Good t k0 w (some i) Option.none true (w.step tab t (.unlock i off len)) := by
  refine step_range v hl (fun p l => Unix.unlock w.k p l) ?_
  intro P N
  obtain ⟨k', r, h1, -, h2, h3, -⟩ := mlock_fx w.k v.wf.page_pos P N false .unlock
  exact ⟨k', r, h1, h2, fun o i => .inl (by rw [h3])⟩

theorem step_intoMapMut (tab : SysTable) (v : w.Inv t k0) (i : Nat) :
    Good t k0 w (some i) Option.none true (w.step tab t (.intoMapMut i)) := by
  simp only [World.step, World.onMap]
  cases hi : w.held i with
  | none => exact Good.refl v
  | some h =>
    cases h with
    | ring r n => exact Good.refl v
    | inf r n => exact Good.refl v
    | map m =>
      obtain ⟨p, n, g⟩ := v.live i _ hi
      have hb := whole_bounds v.wf g.pages
      obtain ⟨k', r, h1, -, h2, h3, -⟩ := protect_fx w.k v.wf.page_pos p n
      have good : Good t k0 w (some i) Option.none true (.ok (w.run k')) :=
        Good.same v hi (h2.wf v.wf) (h2.effect (fun o i => .inl (by rw [h3]))
          (fun q a b => (onPage_iff g.pages q).mpr ⟨a, b⟩)) ⟨p, n, g.onlyRange h2⟩
          (fun _ o _ => by rw [h2.data, h2.size]; exact ⟨rfl, rfl⟩)
      simp only [Map.intoMapMut, hb, h1, bind, Except.bind, pure, Except.pure]
      cases r <;> exact good

theorem step_intoMap (tab : SysTable) (v : w.Inv t k0) (i : Nat) :
    Good t k0 w (some i) Option.none true (w.step tab t (.intoMap i)) := by
  simp only [World.step, World.onMap]
  cases hi : w.held i with
  | none => exact Good.refl v
  | some h =>
    cases h with
    | ring r n => exact Good.refl v
    | inf r n => exact Good.refl v
    | map m =>
      obtain ⟨p, n, g⟩ := v.live i _ hi
      have hb := whole_bounds v.wf g.pages
      obtain ⟨k', r, h1, -, h2, h3, -⟩ := protect_fx w.k v.wf.page_pos p n
      have good : Good t k0 w (some i) Option.none true (.ok (w.run k')) :=
        Good.same v hi (h2.wf v.wf) (h2.effect (fun o i => .inl (by rw [h3]))
          (fun q a b => (onPage_iff g.pages q).mpr ⟨a, b⟩)) ⟨p, n, g.onlyRange h2⟩
          (fun _ o _ => by rw [h2.data, h2.size]; exact ⟨rfl, rfl⟩)
      simp only [MapMut.intoMap, hb, h1, bind, Except.bind, pure, Except.pure]
      cases r <;> exact good

/-- A store through a map fails (outside the map, or not allowed), or does what it should. -/
theorem step_set (tab : SysTable) (v : w.Inv t k0) (i idx : Nat) (b : Byte) {w' : World}
    (hw : w.step tab t (.set i idx b) = .ok w') : Step t k0 w w' (some i) Option.none false := by
  simp only [World.step, World.onMap] at hw
  have triv : ∀ w', (Except.ok w : Exec World) = .ok w' → Step t k0 w w' (some i) Option.none false := by
    intro w' h
    obtain ⟨w1, h1, h2⟩ := Good.refl (tgt := some i) (quiet := false) v
    injection h with h; injection h1 with h1
    rw [← h, h1]; rw [← h1] at h2 ⊢; exact h2
  cases hi : w.held i with
  | none => rw [hi] at hw; exact triv _ hw
  | some h =>
    rw [hi] at hw
    cases h with
    | ring r n => exact triv _ hw
    | inf r n => exact triv _ hw
    | map m =>
      obtain ⟨p, n, g⟩ := v.live i _ hi
      simp only [bind, Except.bind, pure, Except.pure, MapMut.set] at hw
      by_cases hlt : idx < m.len
      · rw [if_pos hlt] at hw
        cases hst : w.k.store (m.ptr + idx) b with
        | error e => rw [hst] at hw; cases hw
        | ok k' =>
          rw [hst] at hw
          injection hw with hw
          have hpage : (Handle.map m).OnPage w.k.page ((m.ptr + idx) / w.k.page) := by
            have hpp := v.wf.page_pos
            have h1 := Nat.div_mul_le_self (m.ptr + idx) w.k.page
            have h2 := Nat.lt_div_mul_add hpp (a := m.ptr + idx)
            refine ⟨?_, ?_⟩
            · show _ < m.ptr + m.len
              omega
            · show m.ptr < _
              rw [Nat.succ_mul]; omega
          obtain ⟨wf', fx, sf⟩ := store_effect v.wf hst hpage
          have hlive : (Handle.map m).Live t k' := by
            refine ⟨p, n, by rw [sf.page]; exact g.pages, ?_⟩
            intro q a c
            obtain ⟨e, he⟩ := g.mapped q a c
            rcases sf.pt q with h | ⟨e', x, -, -, h⟩
            · exact ⟨e, by rw [h]; exact he⟩
            · exact ⟨_, h⟩
          obtain ⟨w1, e1, st⟩ := Good.same v hi wf' fx hlive (quiet := false) (fun h => by cases h)
          injection e1 with e1
          rw [← hw]
          show Step t k0 w (w.run k') (some i) Option.none false
          rw [e1]; exact st
      · rw [if_neg hlt] at hw
        cases hw

theorem step_drop (tab : SysTable) (v : w.Inv t k0) (i : Nat) :
    Good t k0 w (some i) Option.none true (w.step tab t (.drop i)) := by
  simp only [World.step]
  cases hi : w.held i with
  | none => exact Good.refl v
  | some h =>
    have hring : ∀ (ptr cap : Nat) (k' : Kernel), h.base = ptr → h.bytes = 2 * cap →
        w.k.page ∣ ptr → Released t w.k k' ptr cap →
        Good t k0 w (some i) Option.none true (.ok (w.upd k' i Option.none)) := by
      intro ptr cap k' hb hl hd rel
      have hon : ∀ q, h.OnPage w.k.page q ↔ ptr ≤ q * w.k.page ∧ q * w.k.page < ptr + 2 * cap := by
        intro q
        simp only [Handle.OnPage, hb, hl]
        exact onPage_ring v.wf.page_pos hd q
      have kp := rel.keeps
      refine Good.drop v hi rel.wf (Effect.removed kp.page kp.fresh rel.fds kp.nextFd kp.names kp.data
        kp.size kp.disk ?_ ?_) ?_ (fun _ o ho => ⟨kp.data o ho, kp.size o ho⟩)
      · intro q hq; exact rel.others q (fun hh => hq ((hon q).mpr hh))
      · intro q hq; exact rel.gone q ((hon q).mp hq)
      · intro q hq; exact rel.gone q ((hon q).mp hq)
    cases h with
    | ring r n =>
      obtain ⟨h1, -⟩ := v.live i _ hi
      obtain ⟨k', h3, h4⟩ := C27_ring_drop t w.k r n h1
      obtain ⟨o, s, h5, -⟩ := h1.inv
      simp only [h3, bind, Except.bind, pure, Except.pure]
      exact hring r.ptr r.len k' rfl rfl h5.mirror.ptr_dvd h4
    | inf r n =>
      obtain ⟨h1, -⟩ := v.live i _ hi
      obtain ⟨k', h3, h4⟩ := C27_infinite_drop t w.k r n h1
      obtain ⟨o, s, h5, -⟩ := h1.inv
      simp only [h3, bind, Except.bind, pure, Except.pure]
      exact hring r.ptr r.len k' rfl rfl h5.mirror.ptr_dvd h4
    | map m =>
      obtain ⟨p, n, g⟩ := v.live i _ hi
      by_cases h0 : 0 < m.len
      · have hne : m.len ≠ 0 := by omega
        simp only [drop_eq v.wf.page g.pages h0, bind, Except.bind, pure, Except.pure, if_neg hne]
        have hon := onPage_iff g.pages
        refine Good.drop v hi ?_ (Effect.removed (by rfl) (by exact Nat.le_refl _) (by rfl)
          (by exact Nat.le_refl _) (by rfl)
          (by exact fun _ _ => rfl) (by exact fun _ _ => rfl) (by exact fun _ _ => rfl) ?_ ?_) ?_
          (by exact fun _ _ _ => ⟨rfl, rfl⟩)
        · refine v.wf.sub (by rfl) ?_ (by exact fun _ _ h => h) (by exact fun _ _ h => h)
            (by exact Nat.le_refl _) (by exact Nat.le_refl _)
          intro q e he
          have he : (if p ≤ q ∧ q < p + n then Option.none else w.k.pt q) = some e := he
          split at he
          · cases he
          · exact he
        · intro q hq; exact if_neg (fun hh => hq ((hon q).mpr hh))
        · intro q hq; exact if_pos ((hon q).mp hq)
        · intro q hq; exact if_pos ((hon q).mp hq)
      · have hz : m.len = 0 := by omega
        simp only [MapMut.drop, if_neg h0, bind, Except.bind, pure, Except.pure, if_pos hz]
        refine ⟨_, rfl, v.leak hi hz, ⟨noPage, Effect.refl _ _ _, ?_⟩, fun _ _ _ => ⟨rfl, rfl⟩⟩
        intro j x hj hne
        have hne : j ≠ i := fun hh => hne (by rw [hh])
        exact ⟨by simp only [World.upd, if_neg hne]; exact hj, fun _ _ => id⟩

/-- The steps that make a ring. -/
theorem ring_made (v : w.Inv t k0) {k' : Kernel} {hint ptr len : Nat} {h : Handle}
    (hb : h.base = ptr) (hl : h.bytes = 2 * len) (m : Made t w.k k' hint ptr len)
    (l : Closed k' ptr len → h.Live t k') :
    Good t k0 w Option.none Option.none true (.ok (w.put k' h)) := by
  obtain ⟨o, h1, h2, h3⟩ := m.mirror
  have kp := m.keeps
  have hd : w.k.page ∣ ptr := by rw [← kp.page]; exact h1.ptr_dvd
  have hon : ∀ q, h.OnPage w.k.page q ↔ ptr ≤ q * w.k.page ∧ q * w.k.page < ptr + 2 * len := by
    intro q
    simp only [Handle.OnPage, hb, hl]
    exact onPage_ring v.wf.page_pos hd q
  have hent : ∀ q e, h.OnPage w.k.page q → k'.pt q = some e → e.obj = o ∧ e.copy = none := by
    intro q e hq he
    obtain ⟨a, b⟩ := (hon q).mp hq
    obtain ⟨e1, c1, c2, c3⟩ := h1.entry m.wf (p := q) (by rw [kp.page]; exact a)
      (by rw [kp.page]; exact b)
    rw [he] at c1; injection c1 with c1; subst c1; exact ⟨c2, c3⟩
  refine Good.put v m.wf ?_ (l ?_) ?_ (fun _ o ho => ⟨kp.data o ho, kp.size o ho⟩)
  · refine ⟨kp.page, kp.fresh, ?_, ?_, fun o i ho => .inl (by rw [kp.disk o ho]), kp.nextFd,
      fun d _ _ => by rw [m.fds]⟩
    · intro q hq; exact m.others q (fun hh => hq ((hon q).mpr hh))
    · intro D x _ hx
      refine ⟨kp.data x hx.old, kp.size x hx.old, Nat.lt_of_lt_of_le hx.old kp.fresh,
        by rw [m.fds]; exact hx.fds, by rw [kp.names]; exact hx.names, ?_⟩
      intro q e hq he
      obtain ⟨c2, c3⟩ := hent q e hq he
      have := hx.old
      exact ⟨by rw [c2]; omega, by rw [c3]; intro h; cases h⟩
  · intro p e a b he
    rw [kp.page] at a b
    obtain ⟨c2, -⟩ := hent p e ((hon p).mpr ⟨a, b⟩) he
    rw [c2]
    constructor
    · intro d f hd
      rw [m.fds] at hd
      have := (v.wf.fds d f hd).1
      omega
    · intro s hs
      rw [kp.names] at hs
      have := v.wf.names s o hs
      omega
  · intro q hq
    obtain ⟨a, b⟩ := (hon q).mp hq
    exact m.free q a b

theorem effect_sameWorld {k k' : Kernel} {U : Nat → Prop} (s : SameWorld k k') : Effect k k' noPage U := by
  refine ⟨s.page, s.fresh, fun q _ => by rw [s.pt], ?_, fun o i ho => .inl (by rw [s.disk o ho]),
    s.nextFd, fun d _ _ => by rw [s.fds]⟩
  intro D x _ hx
  exact ⟨s.data x hx.old, s.size x hx.old, Nat.lt_of_lt_of_le hx.old s.fresh,
    by rw [s.fds]; exact hx.fds, by rw [s.names]; exact hx.names, by rw [s.pt]; exact hx.pages⟩

theorem step_newRing (tab : SysTable) (v : w.Inv t k0) {hint : Nat} (hh : RingFits t w.k hint) :
    Good t k0 w Option.none Option.none true (w.step tab t (.newRing hint)) := by
  obtain ⟨k', r, e, h1, h2⟩ := Ring.make_good v.wf hh
  simp only [World.step, e, bind, Except.bind, pure, Except.pure]
  cases r with
  | error err =>
    obtain ⟨h1, h2⟩ := h1 err rfl
    exact Good.none v h2 (effect_sameWorld h1) (fun _ o ho => ⟨h1.data o ho, h1.size o ho⟩)
  | ok r =>
    obtain ⟨m, a, b⟩ := h2 r rfl
    exact ring_made v (h := .ring r 0) rfl rfl m (fun c => ⟨.placed m.wf (m.circular v.wf) a b, c⟩)

theorem step_newInf (tab : SysTable) (v : w.Inv t k0) {hint : Nat} (hh : RingFits t w.k hint) :
    Good t k0 w Option.none Option.none true (w.step tab t (.newInf hint)) := by
  obtain ⟨k', r, e, h1, h2⟩ := InfiniteRing.make_good v.wf hh
  simp only [World.step, e, bind, Except.bind, pure, Except.pure]
  cases r with
  | error err =>
    obtain ⟨h1, h2⟩ := h1 err rfl
    exact Good.none v h2 (effect_sameWorld h1) (fun _ o ho => ⟨h1.data o ho, h1.size o ho⟩)
  | ok r =>
    obtain ⟨m, a, b⟩ := h2 r rfl
    exact ring_made v (h := .inf r 0) rfl rfl m (fun c => ⟨.placed m.wf (m.circular v.wf) a b, c⟩)

/-- A call on a ring changes nothing but the ring's memory. -/
theorem ring_called (v : w.Inv t k0) {i : Nat} {h h' : Handle} {k' : Kernel} {ptr len : Nat}
    {o : Obj} (hi : w.held i = some h) (b1 : h.base = ptr) (b2 : h.bytes = 2 * len)
    (b3 : h'.base = ptr) (b4 : h'.bytes = 2 * len) (m : w.k.Mirror t ptr len o)
    (sd : SameButData w.k k') (d : ∀ o', o' ≠ o → k'.data o' = w.k.data o')
    (cl : Closed w.k ptr len) (l : Closed k' ptr len → h'.Live t k') :
    Good t k0 w (some i) Option.none false (.ok (w.upd k' i (some h'))) := by
  refine Good.change v hi (by rw [b1, b3]) (by rw [b2, b4]) (v.wf.sameButData sd) ?_ (l ?_)
    (fun h => by cases h)
  · refine ⟨sd.page, Nat.le_of_eq sd.fresh.symm, fun q _ => by rw [sd.pt], ?_,
      fun o i _ => .inl (by rw [sd.disk]), Nat.le_of_eq sd.nextFd.symm, fun d _ _ => by rw [sd.fds]⟩
    intro D x _ hx
    have h0 := m.len_pos
    have hin := page_inside (a := ptr + 0) (len := len) m.ptr_dvd v.wf.page_pos (by omega) (by omega)
    obtain ⟨e, c1, c2, -⟩ := m.entry v.wf hin.1 hin.2
    have hon : h.OnPage w.k.page ((ptr + 0) / w.k.page) := by
      simp only [Handle.OnPage, b1, b2]
      exact (onPage_ring v.wf.page_pos m.ptr_dvd _).mpr hin
    have hne : x ≠ o := by
      rw [← c2]; exact (hx.pages _ e hon c1).1.symm
    exact ⟨d x hne, by rw [sd.size], by rw [sd.fresh]; exact hx.old, by rw [sd.fds]; exact hx.fds,
      by rw [sd.names]; exact hx.names, by rw [sd.pt]; exact hx.pages⟩
  · intro p e h1 h2 he
    rw [sd.page] at h1 h2
    rw [sd.pt] at he
    obtain ⟨a, b⟩ := cl p e h1 h2 he
    exact ⟨by rw [sd.fds]; exact a, by rw [sd.names]; exact b⟩

theorem step_ringOp (tab : SysTable) (v : w.Inv t k0) {i : Nat} {op : RingOp}
    (sane : (Op.ringOp i op).Sane t w) :
    Good t k0 w (some i) Option.none false (w.step tab t (.ringOp i op)) := by
  simp only [World.step]
  cases hi : w.held i with
  | none => exact Good.refl v
  | some h =>
    cases h with
    | map m => exact Good.refl v
    | inf r n => exact Good.refl v
    | ring r n =>
      obtain ⟨h1, cl⟩ := v.live i _ hi
      obtain ⟨o, s, a1, a2, a3, a4⟩ := h1.inv
      have hw := a1.writeLen_eq
      have sane := sane r n _ hi hw
      have ht : (s.step op).1.total = passed op n s.spare.length := by
        cases op <;> simp [Win.step, passed, a2]
      obtain ⟨k1, r1, e, -, p1, p2, sd, d⟩ := ring_step a1 op (by rw [ht]; exact sane)
      simp only [hw, e, bind, Except.bind, pure, Except.pure]
      refine ring_called v hi rfl rfl p1 (by show 2 * r1.len = _; rw [p2]) a1.mirror sd d cl ?_
      intro c
      exact ⟨.call h1 hw sane e, by rw [p1, p2]; exact c⟩

theorem step_infOp (tab : SysTable) (v : w.Inv t k0) {i : Nat} {op : RingOp}
    (sane : (Op.infOp i op).Sane t w) :
    Good t k0 w (some i) Option.none false (w.step tab t (.infOp i op)) := by
  simp only [World.step]
  cases hi : w.held i with
  | none => exact Good.refl v
  | some h =>
    cases h with
    | map m => exact Good.refl v
    | ring r n => exact Good.refl v
    | inf r n =>
      obtain ⟨h1, cl⟩ := v.live i _ hi
      obtain ⟨o, s, a1, a2, a3, a4⟩ := h1.inv
      have hw : r.writeLen t = .ok r.len := rfl
      obtain ⟨s1, s2, s3⟩ := sane r n _ hi hw
      have ht : (s.step op).1.total = passed op n r.len := by
        cases op <;> simp [Lossy.step, passed, a2, ← a1.all_len, Lossy.append]
        exact absurd rfl s1
      obtain ⟨k1, r1, e, -, p1, p2, sd, d⟩ := inf_step a1 op (by rw [ht]; exact s2) s3
      simp only [hw, e, bind, Except.bind, pure, Except.pure]
      refine ring_called v hi rfl rfl p1 (by show 2 * r1.len = _; rw [p2]) a1.mirror sd d cl ?_
      intro c
      exact ⟨.call h1 hw s1 s2 s3 e, by rw [p1, p2]; exact c⟩

theorem step_infAll (tab : SysTable) (v : w.Inv t k0) {i : Nat} {bs : List Byte}
    (sane : (Op.infAll i bs).Sane t w) :
    Good t k0 w (some i) Option.none false (w.step tab t (.infAll i bs)) := by
  simp only [World.step]
  cases hi : w.held i with
  | none => exact Good.refl v
  | some h =>
    cases h with
    | map m => exact Good.refl v
    | ring r n => exact Good.refl v
    | inf r n =>
      obtain ⟨h1, cl⟩ := v.live i _ hi
      obtain ⟨o, s, a1, a2, a3, a4⟩ := h1.inv
      have sane := sane r n hi
      obtain ⟨k1, r1, e, -, p1, p2, sd, d⟩ := inf_writeAll a1 bs (by rw [a1.total, a2]; exact sane)
      simp only [e, bind, Except.bind, pure, Except.pure]
      refine ring_called v hi rfl rfl p1 (by show 2 * r1.len = _; rw [p2]) a1.mirror sd d cl ?_
      intro c
      refine ⟨?_, by rw [p1, p2]; exact c⟩
      rw [p2]
      exact .all h1 sane e

/-- Every step but a store through a map succeeds; every step preserves the invariant. -/
theorem step_good (tab : SysTable) (v : w.Inv t k0) {op : Op} (sane : op.Sane t w) :
    (∀ i idx b, op ≠ .set i idx b) → Good t k0 w op.target op.fd op.quiet (w.step tab t op) := by
  intro hs
  cases op with
  | mapIf o fd => exact step_mapIf tab v sane fd
  | alloc o => exact step_alloc tab v sane
  | openIf o path => exact step_openIf tab v sane path
  | close fd => exact step_close tab v fd
  | pwrite fd i b => exact step_pwrite tab v fd i b
  | newRing hint => exact step_newRing tab v sane
  | newInf hint => exact step_newInf tab v sane
  | drop i => exact step_drop tab v i
  | flush i off len mode => exact step_flush tab v sane mode
  | advise i off len adv => exact step_advise tab v sane adv
  | lock i off len => exact step_lock tab v sane
  | unlock i off len => exact step_unlock tab v sane
  | intoMapMut i => exact step_intoMapMut tab v i
  | intoMap i => exact step_intoMap tab v i
  | set i idx b => exact absurd rfl (hs i idx b)
  | ringOp i op => exact step_ringOp tab v sane
  | infOp i op => exact step_infOp tab v sane
  | infAll i bs => exact step_infAll tab v sane
  | writeBack sel => exact step_writeBack tab v sel

theorem step_ok (tab : SysTable) (v : w.Inv t k0) {op : Op} (sane : op.Sane t w) {w' : World}
    (h : w.step tab t op = .ok w') : Step t k0 w w' op.target op.fd op.quiet := by
  by_cases hs : ∀ i idx b, op ≠ .set i idx b
  · obtain ⟨w1, h1, h2⟩ := step_good tab v sane hs
    rw [h] at h1
    injection h1 with h1
    rw [h1]; exact h2
  · cases op with
    | set i idx b => exact step_set tab v i idx b h
    | _ => exact absurd (fun _ _ _ h => by cases h) hs

theorem Reach.inv {tab : SysTable} (w0 : Wf t k0) (h : Reach tab t k0 w) : w.Inv t k0 := by
  induction h with
  | start => exact .start w0
  | step _ sane st ih => exact (step_ok tab ih sane st).inv

end
end Vmap
