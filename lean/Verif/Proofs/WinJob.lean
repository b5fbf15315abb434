import Verif.Spec.WinJob
import Verif.Proofs.Windows
/-
Lemmas for C125: one system call of a ring creation on Windows at a time.
-/
namespace Vmap
open Spec

/-- The section of a ring of `len` bytes. -/
def ringSection (len h : Nat) : Section := ⟨h, none, .readwrite, 2 * len⟩

/-- Everything is in order in `s`, which comes after `s0`. -/
structure WinFine (t : Target) (s0 s : Win) : Prop where
  wf : WinWf t s
  laid : WinLaid t s
  space : WinRoom s
  page : s.page = s0.page
  gran : s.gran = s0.gran
  next : s0.next ≤ s.next

/-- The section `h` is the creation's own, and viewed by `vs` only. -/
structure WinOwnSec (s0 s : Win) (len h : Nat) (vs : List WinView) : Prop where
  pos : 0 < len
  late : s0.next ≤ h
  handle : s.handles h = some (ringSection len h)
  zero : ∀ i, s.bytes.mem h i = 0
  own : ∀ a, s.bytes.own h a = none
  only : ∀ v, v ∈ s.views → v.sec.id = h → v ∈ vs
  have' : ∀ v, v ∈ vs → v ∈ s.views
  alone : ∀ h' x, s.handles h' = some x → x.id = h → h' = h

/-- A place for both halves. -/
structure WinPlace (t : Target) (s : Win) (len pg : Nat) : Prop where
  ne : pg ≠ 0
  dvd : pg % s.gran = 0
  lim : pg + 2 * len < t.lim

/-- What holds where. -/
def WinJobOk (t : Target) (s0 s : Win) (len : Nat) : WinRingJob → Prop
  | .create l => l = len
  | .reserve l full h _ => l = len ∧ full = 2 * len ∧ WinOwnSec s0 s len h []
  | .release l full h _ pg => l = len ∧ full = 2 * len ∧ WinOwnSec s0 s len h [] ∧
      WinPlace t s len pg ∧ (pg, full) ∈ s.reserved
  | .first l full h _ pg => l = len ∧ full = 2 * len ∧ WinOwnSec s0 s len h [] ∧ WinPlace t s len pg
  | .second l full h _ pg a => l = len ∧ full = 2 * len ∧ a = pg ∧
      WinOwnSec s0 s len h [ringHalf len a (ringSection len h)] ∧ WinPlace t s len pg
  | .undo l full h _ a _ => l = len ∧ full = 2 * len ∧
      WinOwnSec s0 s len h [ringHalf len a (ringSection len h)]
  | .finish h (.ok a) => WinOwnSec s0 s len h [ringHalf len a (ringSection len h),
      ringHalf len (a + len) (ringSection len h)] ∧ WinPlace t s len a
  | .finish h (.error _) => WinOwnSec s0 s len h []
  | .done (.ok a) => ∃ h, s0.next ≤ h ∧ ringHalf len a (ringSection len h) ∈ s.views ∧
      ringHalf len (a + len) (ringSection len h) ∈ s.views
  | .done (.error _) => True

open Win in
/-- A free place gets a view. -/
theorem WinFine.view {t : Target} {s0 s s' : Win} (w : WinFine t s0 s) {v : WinView}
    (hv : s'.views = v :: s.views) (hr : s'.reserved = s.reserved) (hh : s'.handles = s.handles)
    (hp : s'.page = s.page) (hg : s'.gran = s.gran) (hn : s'.next = s.next)
    (len : 0 < v.len) (id : v.sec.id < s.next) (base : v.base ≠ 0) (al : v.base % s.gran = 0)
    (off : v.off % s.gran = 0) (lim : v.base + s.roundPage v.len < t.lim)
    (free : s.free v.base v.len = true) : WinFine t s0 s' := by
  have hround : ∀ n, s'.roundPage n = s.roundPage n := by
    intro n; simp only [Win.roundPage, hp]
  rw [Win.free, Bool.and_eq_true] at free
  have f1 : ∀ x, x ∈ s.views → _ := fun x hx => of_decide_eq_true (List.all_eq_true.mp free.1 x hx)
  have f2 : ∀ x, x ∈ s.reserved → _ := fun x hx => of_decide_eq_true (List.all_eq_true.mp free.2 x hx)
  refine ⟨⟨?_, ?_, ?_, ?_⟩, ⟨?_, ?_, ?_⟩, ⟨?_, ?_⟩, hp.trans w.page, hg.trans w.gran, hn ▸ w.next⟩
  · rw [hp, hg]; exact w.wf.sizes
  · intro x hx
    rw [hv] at hx; rw [hn]
    rcases List.mem_cons.mp hx with rfl | hx
    · exact ⟨len, id⟩
    · exact w.wf.views x hx
  · rw [hr]; exact w.wf.reserved
  · rw [hh, hn]; exact w.wf.handles
  · rw [hp, hg]; exact w.laid.sizes
  · intro x hx
    rw [hv] at hx; rw [hg, hround]
    rcases List.mem_cons.mp hx with rfl | hx
    · exact ⟨len, base, Nat.dvd_of_mod_eq_zero al, Nat.dvd_of_mod_eq_zero off, lim⟩
    · exact w.laid.inside x hx
  · rw [hv]
    simp only [hround]
    refine List.Pairwise.cons (fun x hx => ?_) w.laid.apart
    exact f1 x hx
  · rw [hr]; simp only [hround]; exact w.space.apart
  · rw [hr, hv]; simp only [hround]
    intro r hr x hx
    rcases List.mem_cons.mp hx with rfl | hx
    · have := f2 r hr; omega
    · exact w.space.views r hr x hx

/-- Nothing but fewer views, reservations and handles. -/
theorem WinFine.less {t : Target} {s0 s s' : Win} (w : WinFine t s0 s)
    (hv : s'.views.Sublist s.views) (hr : s'.reserved.Sublist s.reserved)
    (hh : ∀ h x, s'.handles h = some x → s.handles h = some x)
    (hp : s'.page = s.page) (hg : s'.gran = s.gran) (hn : s'.next = s.next) : WinFine t s0 s' := by
  have hround : ∀ n, s'.roundPage n = s.roundPage n := by
    intro n; simp only [Win.roundPage, hp]
  refine ⟨⟨?_, ?_, ?_, ?_⟩, ⟨?_, ?_, ?_⟩, ⟨?_, ?_⟩, hp.trans w.page, hg.trans w.gran, hn ▸ w.next⟩
  · rw [hp, hg]; exact w.wf.sizes
  · rw [hn]; exact fun x hx => w.wf.views x (hv.subset hx)
  · exact fun x hx => w.wf.reserved x (hr.subset hx)
  · rw [hn]; exact fun h x hx => w.wf.handles h x (hh h x hx)
  · rw [hp, hg]; exact w.laid.sizes
  · rw [hg]; simp only [hround]; exact fun x hx => w.laid.inside x (hv.subset hx)
  · simp only [hround]; exact w.laid.apart.sublist hv
  · simp only [hround]; exact w.space.apart.sublist hr
  · simp only [hround]
    exact fun r h x hx => w.space.views r (hr.subset h) x (hv.subset hx)

/-- A call that only reports. -/
theorem WinFine.did {t : Target} {s0 s : Win} (w : WinFine t s0 s) (c : WinCall) : WinFine t s0 (s.did c) :=
  w.less (List.Sublist.refl _) (List.Sublist.refl _) (fun _ _ h => h) rfl rfl rfl

/-- A new section. -/
theorem WinFine.section' {t : Target} {s0 s s' : Win} (w : WinFine t s0 s) {x : Section} (hx : x.id = s.next)
    (hv : s'.views = s.views) (hr : s'.reserved = s.reserved)
    (hh : s'.handles = fun h => if h = s.next then some x else s.handles h)
    (hp : s'.page = s.page) (hg : s'.gran = s.gran) (hn : s'.next = s.next + 1) : WinFine t s0 s' := by
  have hround : ∀ n, s'.roundPage n = s.roundPage n := by
    intro n; simp only [Win.roundPage, hp]
  refine ⟨⟨?_, ?_, ?_, ?_⟩, ⟨?_, ?_, ?_⟩, ⟨?_, ?_⟩, hp.trans w.page, hg.trans w.gran, ?_⟩
  · rw [hp, hg]; exact w.wf.sizes
  · rw [hn, hv]; exact fun x hx => ⟨(w.wf.views x hx).1, by have := (w.wf.views x hx).2; omega⟩
  · rw [hr]; exact w.wf.reserved
  · rw [hh, hn]
    intro h y hy
    dsimp only at hy
    split at hy
    · rename_i e
      cases hy
      exact ⟨by omega, by omega⟩
    · have := w.wf.handles h y hy
      omega
  · rw [hp, hg]; exact w.laid.sizes
  · rw [hg, hv]; simp only [hround]; exact w.laid.inside
  · rw [hv]; simp only [hround]; exact w.laid.apart
  · rw [hr]; simp only [hround]; exact w.space.apart
  · rw [hr, hv]; simp only [hround]; exact w.space.views
  · have := w.next
    omega

/-- A free place gets reserved. -/
theorem WinFine.reserve {t : Target} {s0 s s' : Win} (w : WinFine t s0 s) {a n : Nat}
    (hv : s'.views = s.views) (hr : s'.reserved = (a, n) :: s.reserved) (hh : s'.handles = s.handles)
    (hp : s'.page = s.page) (hg : s'.gran = s.gran) (hn : s'.next = s.next)
    (len : 0 < n) (free : s.free a n = true) : WinFine t s0 s' := by
  have hround : ∀ n, s'.roundPage n = s.roundPage n := by
    intro n; simp only [Win.roundPage, hp]
  rw [Win.free, Bool.and_eq_true] at free
  have f1 : ∀ x, x ∈ s.views → _ := fun x hx => of_decide_eq_true (List.all_eq_true.mp free.1 x hx)
  have f2 : ∀ x, x ∈ s.reserved → _ := fun x hx => of_decide_eq_true (List.all_eq_true.mp free.2 x hx)
  refine ⟨⟨?_, ?_, ?_, ?_⟩, ⟨?_, ?_, ?_⟩, ⟨?_, ?_⟩, hp.trans w.page, hg.trans w.gran, hn ▸ w.next⟩
  · rw [hp, hg]; exact w.wf.sizes
  · rw [hv, hn]; exact w.wf.views
  · rw [hr]
    intro r h
    rcases List.mem_cons.mp h with rfl | h
    · exact len
    · exact w.wf.reserved r h
  · rw [hh, hn]; exact w.wf.handles
  · rw [hp, hg]; exact w.laid.sizes
  · rw [hg, hv]; simp only [hround]; exact w.laid.inside
  · rw [hv]; simp only [hround]; exact w.laid.apart
  · rw [hr]; simp only [hround]
    exact List.Pairwise.cons (fun x hx => f2 x hx) w.space.apart
  · rw [hr, hv]; simp only [hround]
    intro r h x hx
    rcases List.mem_cons.mp h with rfl | h
    · exact f1 x hx
    · exact w.space.views r h x hx

/-- Two reserved ranges are the same or apart. -/
theorem WinFine.two {t : Target} {s0 s : Win} (w : WinFine t s0 s) {r q : Nat × Nat} (hr : r ∈ s.reserved)
    (hq : q ∈ s.reserved) : r = q ∨ r.1 + s.roundPage r.2 ≤ q.1 ∨ q.1 + s.roundPage q.2 ≤ r.1 := by
  have hap := w.space.apart
  generalize s.reserved = rs at *
  induction rs with
  | nil => cases hr
  | cons v vs ih =>
    rw [List.pairwise_cons] at hap
    rcases List.mem_cons.mp hr with rfl | hr'
    · rcases List.mem_cons.mp hq with rfl | hq'
      · exact .inl rfl
      · exact .inr (hap.1 q hq')
    · rcases List.mem_cons.mp hq with rfl | hq'
      · exact .inr (hap.1 r hr').symm
      · exact ih hr' hq' hap.2

/-- A reserved range is the only one that begins there. -/
theorem WinFine.one {t : Target} {s0 s : Win} (w : WinFine t s0 s) {r q : Nat × Nat} (hr : r ∈ s.reserved)
    (hq : q ∈ s.reserved) (h : r.1 = q.1) : r = q := by
  have hp := w.wf.page_pos
  have h1 := s.roundPage_le hp r.2
  have h2 := s.roundPage_le hp q.2
  have h3 := w.wf.reserved r hr
  have h4 := w.wf.reserved q hq
  rcases w.two hr hq with e | e | e
  · exact e
  · omega
  · omega

theorem _root_.Vmap.Spec.WinSame.of_eq {s s' : Win} (hb : s'.bytes = s.bytes) (hn : s'.next = s.next) : WinSame s s' :=
  ⟨by omega, by rw [hb], fun _ _ => by rw [hb]; exact ⟨rfl, rfl⟩, fun _ h1 h2 => by omega⟩

/-- The section stays the creation's own. -/
theorem WinOwnSec.keep {s0 s s' : Win} {len h : Nat} {vs vs' : List WinView} (o : WinOwnSec s0 s len h vs)
    (hh : s'.handles = s.handles) (hb : s'.bytes = s.bytes)
    (only : ∀ v, v ∈ s'.views → v.sec.id = h → v ∈ vs') (have' : ∀ v, v ∈ vs' → v ∈ s'.views) :
    WinOwnSec s0 s' len h vs' :=
  ⟨o.pos, o.late, by rw [hh]; exact o.handle, by rw [hb]; exact o.zero, by rw [hb]; exact o.own, only, have',
    by rw [hh]; exact o.alone⟩

theorem again_handle (len full h left : Nat) (e : Error) :
    (WinRingJob.again len full h left e).handle = some h := by
  cases left <;> rfl

theorem again_room (len full h left : Nat) (e : Error) :
    (WinRingJob.again len full h left e).room = none := by
  cases left <;> rfl

theorem again_bases (n len full h left : Nat) (e : Error) :
    (WinRingJob.again len full h left e).bases n = [] := by
  cases left <;> rfl

theorem again_ok {t : Target} {s0 s : Win} {len h : Nat} (left : Nat) (e : Error)
    (o : WinOwnSec s0 s len h []) : WinJobOk t s0 s len (WinRingJob.again len (2 * len) h left e) := by
  cases left
  · exact o
  · exact ⟨rfl, rfl, o⟩

/-- A call that did nothing but answer. -/
theorem _root_.Vmap.Spec.WinMinds.none {len : Nat} {j j' : WinRingJob} {s s' : Win} (hv : s'.views = s.views)
    (hr : s'.reserved = s.reserved) (hh : s'.handles = s.handles) (hf : s'.files = s.files)
    (hp : s'.page = s.page) (hg : s'.gran = s.gran) (hb : s'.bytes = s.bytes) (hn : s'.next = s.next)
    (h1 : j'.handle = j.handle) (h2 : j'.room = j.room) (h3 : j'.bases len = j.bases len) :
    WinMinds len j j' s s' where
  files := hf
  bytes := .of_eq hb hn
  page := hp
  gran := hg
  handles := fun _ _ _ => by rw [hh]
  reserved := fun _ _ _ => by rw [hr]
  views := fun _ _ _ => by rw [hv]
  newHandle := fun _ h => .inl (h1 ▸ h)
  newRoom := fun _ h => .inl (h2 ▸ h)
  newViews := fun _ h => .inl (h3 ▸ h)
  section' := fun _ h n => absurd (hv ▸ h) n
  goneHandle := fun _ h n => absurd (h1 ▸ h) n
  goneRoom := fun _ h n => absurd (h2 ▸ h) n
  goneViews := fun _ h n => absurd (h3 ▸ h) n

open Win WinRingJob

/-- `CreateFileMappingW`. -/
theorem ringStep_create {t : Target} {s0 s : Win} (w : WinFine t s0 s) {len : Nat} (fit : 2 * len < t.lim) :
    ∃ s' j', (WinRingJob.create len).step t s = .ok (s', j') ∧ WinFine t s0 s' ∧ WinJobOk t s0 s' len j' ∧
      WinMinds len (.create len) j' s s' := by
  simp only [WinRingJob.step, mulU_ok fit, bind, Except.bind]
  rcases handleNew_cases s .ringAllocate none .readwrite fit with ⟨e, h⟩ | ⟨size, h1, h2, -, h⟩ <;> rw [h] <;>
    refine ⟨_, _, rfl, ?_, ?_, ?_⟩
  · exact w.did _
  · trivial
  · exact .none rfl rfl rfl rfl rfl rfl rfl rfl rfl rfl rfl
  · exact w.section' (x := ⟨s.next, none, .readwrite, size⟩) rfl rfl rfl rfl rfl rfl rfl
  · cases h2 rfl
    refine ⟨rfl, rfl, by omega, w.next, by simp [ringSection], by simp [WinBytes.newSection],
      by simp [WinBytes.newSection], ?_, by simp, ?_⟩
    · intro v hv hid
      have := (w.wf.views v hv).2
      omega
    · intro h' x hx hid
      dsimp only at hx
      split at hx
      · assumption
      · have := (w.wf.handles h' x hx).2
        omega
  · cases h2 rfl
    constructor <;> simp [WinRingJob.handle, WinRingJob.room, WinRingJob.bases, did]
    · refine ⟨by simp, rfl, fun id hi => ?_, fun id h1 h2 => ?_⟩
      · have : id ≠ s.next := by omega
        simp only [WinBytes.newSection, if_neg this, and_self]
      · dsimp only at h2
        have : id = s.next := by omega
        simp only [WinBytes.newSection, if_pos this, implies_true, and_self]
    · intro h hne e
      exact absurd e.symm hne

/-- `VirtualAlloc`. -/
theorem ringStep_reserve {t : Target} {s0 s : Win} (w : WinFine t s0 s) {len l full h left : Nat}
    (ok : WinJobOk t s0 s len (.reserve l full h left)) :
    ∃ s' j', (WinRingJob.reserve l full h left).step t s = .ok (s', j') ∧ WinFine t s0 s' ∧
      WinJobOk t s0 s' len j' ∧ WinMinds len (.reserve l full h left) j' s s' := by
  obtain ⟨rfl, rfl, o⟩ := ok
  simp only [WinRingJob.step, virtualAlloc]
  by_cases hc : s.choice.ok = true ∧ s.choice.addr ≠ 0 ∧ s.choice.addr % s.gran = 0 ∧
      s.choice.addr + s.roundPage (2 * l) < t.lim ∧ s.free s.choice.addr (2 * l) = true
  · rw [if_pos hc]
    obtain ⟨-, h2, h3, h4, h5⟩ := hc
    have pos := o.pos
    refine ⟨_, _, rfl, ?_, ?_, ?_⟩
    · exact w.reserve rfl rfl rfl rfl rfl rfl (by omega) h5
    · have := s.roundPage_le w.wf.page_pos (2 * l)
      exact ⟨rfl, rfl, o.keep rfl rfl o.only o.have', ⟨h2, h3, by omega⟩, List.mem_cons_self⟩
    · constructor <;> simp [WinRingJob.handle, WinRingJob.room, WinRingJob.bases, did]
      · exact .of_eq rfl rfl
      · intro a b h e1 e2
        exact absurd e2.symm (h e1.symm)
      · intro hm
        have := free_reserved w.wf.page_pos h5 hm
        dsimp only at this
        omega
      · intro v h1 h2
        exact absurd h1 h2
  · rw [if_neg hc]
    exact ⟨_, _, rfl, w.did _, o.keep rfl rfl o.only o.have',
      .none rfl rfl rfl rfl rfl rfl rfl rfl rfl rfl rfl⟩

/-- `VirtualFree`. -/
theorem ringStep_release {t : Target} {s0 s : Win} (w : WinFine t s0 s) {len l full h left pg : Nat}
    (ok : WinJobOk t s0 s len (.release l full h left pg)) :
    ∃ s' j', (WinRingJob.release l full h left pg).step t s = .ok (s', j') ∧ WinFine t s0 s' ∧
      WinJobOk t s0 s' len j' ∧ WinMinds len (.release l full h left pg) j' s s' := by
  obtain ⟨rfl, rfl, o, p, r⟩ := ok
  refine ⟨_, _, rfl, ?_, ?_, ?_⟩
  · exact w.less (List.Sublist.refl _) List.filter_sublist (fun _ _ h => h) rfl rfl rfl
  · exact ⟨rfl, rfl, o.keep rfl rfl o.only o.have', ⟨p.ne, p.dvd, p.lim⟩⟩
  · constructor <;> simp [WinRingJob.handle, WinRingJob.room, WinRingJob.bases, did, virtualFree]
    · exact .of_eq rfl rfl
    · intro a b h hm e
      cases w.one hm r e
      exact absurd rfl (h rfl)
    · intro v h1 h2
      exact absurd h1 h2

/-- What viewing a half does. -/
theorem ringStep_view {t : Target} {s0 s : Win} (w : WinFine t s0 s) {len h pg : Nat} {vs : List WinView}
    (o : WinOwnSec s0 s len h vs) (hpg : pg ≠ 0) (op : Operation) :
    (∃ s' e, s.view t h op { read := true, write := true } 0 len pg = .ok (s', .error (Error.lastOsError op e)) ∧
      WinFine t s0 s' ∧ WinOwnSec s0 s' len h vs ∧ s'.views = s.views ∧ s'.reserved = s.reserved ∧
      s'.handles = s.handles ∧ s'.files = s.files ∧ s'.page = s.page ∧ s'.gran = s.gran ∧ s'.bytes = s.bytes ∧
      s'.next = s.next) ∨
    (∃ s', s.view t h op { read := true, write := true } 0 len pg = .ok (s', .ok pg) ∧ WinFine t s0 s' ∧
      (∀ v, v ∈ s.views → v.base ≠ pg) ∧
      WinOwnSec s0 s' len h (ringHalf len pg (ringSection len h) :: vs) ∧
      s'.views = ringHalf len pg (ringSection len h) :: s.views ∧ s'.reserved = s.reserved ∧
      s'.handles = s.handles ∧ s'.files = s.files ∧ s'.page = s.page ∧ s'.gran = s.gran ∧ s'.bytes = s.bytes ∧
      s'.next = s.next) := by
  rcases view_cases s o.handle op { read := true, write := true } len pg t.lim_pos with
    ⟨e, h1⟩ | ⟨base, n, n0, nn, hb, ho, hsz, b0, bg, lim, free, -, h1⟩
  · exact .inl ⟨_, e, h1, w.did _, o.keep rfl rfl o.only o.have', rfl, rfl, rfl, rfl, rfl, rfl, rfl, rfl⟩
  · have pos := o.pos
    rw [if_neg (by omega)] at nn
    obtain rfl : base = pg := hb hpg
    subst nn
    have fresh : ∀ v, v ∈ s.views → v.base ≠ base := by
      intro v hv e
      have := free_views w.wf.page_pos free hv
      have := (w.wf.views v hv).1
      omega
    refine .inr ⟨_, h1, ?_, fresh, ?_, rfl, rfl, rfl, rfl, rfl, rfl, rfl, rfl⟩
    · exact w.view (v := ringHalf n base (ringSection n h)) rfl rfl rfl rfl rfl rfl pos
        (w.wf.handles h _ o.handle).1 b0 bg (Nat.zero_mod _) lim free
    · refine o.keep rfl rfl (fun v hv hid => ?_) (fun v hv => ?_)
      · rcases List.mem_cons.mp hv with rfl | hv
        · exact List.mem_cons_self
        · exact List.mem_cons_of_mem _ (o.only v hv hid)
      · rcases List.mem_cons.mp hv with rfl | hv
        · exact List.mem_cons_self
        · exact List.mem_cons_of_mem _ (o.have' v hv)

/-- `MapViewOfFileEx` of the first half. -/
theorem ringStep_first {t : Target} {s0 s : Win} (w : WinFine t s0 s) {len l full h left pg : Nat}
    (ok : WinJobOk t s0 s len (.first l full h left pg)) :
    ∃ s' j', (WinRingJob.first l full h left pg).step t s = .ok (s', j') ∧ WinFine t s0 s' ∧
      WinJobOk t s0 s' len j' ∧ WinMinds len (.first l full h left pg) j' s s' := by
  obtain ⟨rfl, rfl, o, p⟩ := ok
  simp only [WinRingJob.step, bind, Except.bind]
  rcases ringStep_view w o p.ne .ringPrimary with
    ⟨s', e, h1, w', o', hv, hr, hh, hf, hp, hg, hb, hn⟩ | ⟨s', h1, w', fresh, o', hv, hr, hh, hf, hp, hg, hb, hn⟩ <;>
    rw [h1] <;> refine ⟨_, _, rfl, w', ?_, ?_⟩
  · exact again_ok _ _ o'
  · exact .none hv hr hh hf hp hg hb hn (again_handle ..) (again_room ..) (again_bases ..)
  · exact ⟨rfl, rfl, rfl, o', p.ne, hg ▸ p.dvd, p.lim⟩
  · constructor <;> try simp [WinRingJob.handle, WinRingJob.room, WinRingJob.bases, hv, hr, hh, hf, hp, hg]
    · exact .of_eq hb hn
    · intro v h1 e
      rw [e] at h1
      exact absurd rfl h1
    · exact fresh
    · exact ⟨fun _ => o.handle, fun v h1 h2 => absurd h1 h2⟩

/-- `MapViewOfFileEx` of the second half. -/
theorem ringStep_second {t : Target} {s0 s : Win} (w : WinFine t s0 s) {len l full h left pg a : Nat}
    (ok : WinJobOk t s0 s len (.second l full h left pg a)) :
    ∃ s' j', (WinRingJob.second l full h left pg a).step t s = .ok (s', j') ∧ WinFine t s0 s' ∧
      WinJobOk t s0 s' len j' ∧ WinMinds len (.second l full h left pg a) j' s s' := by
  obtain ⟨rfl, rfl, rfl, o, p⟩ := ok
  have lim := p.lim
  have hne := p.ne
  simp only [WinRingJob.step, bind, Except.bind, ptrAdd_ok (t := t) (a := a) (b := l) (by omega)]
  rcases ringStep_view w o (pg := a + l) (by omega) .ringSecondary with
    ⟨s', e, h1, w', o', hv, hr, hh, hf, hp, hg, hb, hn⟩ | ⟨s', h1, w', fresh, o', hv, hr, hh, hf, hp, hg, hb, hn⟩ <;>
    rw [h1] <;> refine ⟨_, _, rfl, w', ?_, ?_⟩
  · exact ⟨rfl, rfl, o'⟩
  · exact .none hv hr hh hf hp hg hb hn rfl rfl rfl
  · refine ⟨⟨o'.pos, o'.late, o'.handle, o'.zero, o'.own, fun v hv hid => ?_, fun v hv => ?_, o'.alone⟩,
      p.ne, hg ▸ p.dvd, p.lim⟩
    · have := o'.only v hv hid
      simp only [List.mem_cons, List.not_mem_nil, or_false] at this ⊢
      exact this.symm
    · refine o'.have' v ?_
      simp only [List.mem_cons, List.not_mem_nil, or_false] at hv ⊢
      exact hv.symm
  · constructor <;> try simp [WinRingJob.handle, WinRingJob.room, WinRingJob.bases, hv, hr, hh, hf, hp, hg]
    · exact .of_eq hb hn
    · intro v _ h2 e
      rw [e] at h2
      exact absurd rfl h2
    · exact .inr fresh
    · exact ⟨fun _ => o.handle, fun v h1 h2 => absurd h1 h2⟩

/-- `UnmapViewOfFile` of the first half. -/
theorem ringStep_undo {t : Target} {s0 s : Win} (w : WinFine t s0 s) {len l full h left a : Nat} {e : Error}
    (ok : WinJobOk t s0 s len (.undo l full h left a e)) :
    ∃ s' j', (WinRingJob.undo l full h left a e).step t s = .ok (s', j') ∧ WinFine t s0 s' ∧
      WinJobOk t s0 s' len j' ∧ WinMinds len (.undo l full h left a e) j' s s' := by
  obtain ⟨rfl, rfl, o⟩ := ok
  have there := o.have' _ List.mem_cons_self
  have hu : (s.unmapViewOfFile a).1 = { s.did (.unmapViewOfFile a) with
      views := s.views.filter (fun v => decide (v.base ≠ a))
      locked := fun q => s.locked q && !s.views.any (fun v => decide (v.base = a) && v.onPage s.page q) } := by
    rw [unmapViewOfFile, if_pos]
    rw [List.any_eq_true]
    exact ⟨_, there, decide_eq_true rfl⟩
  refine ⟨_, _, rfl, ?_, again_ok _ _ ?_, ?_⟩ <;> rw [hu]
  · exact w.less List.filter_sublist (List.Sublist.refl _) (fun _ _ h => h) rfl rfl rfl
  · refine o.keep rfl rfl (fun v hv hid => ?_) (fun v hv => by cases hv)
    simp only [List.mem_filter, decide_eq_true_eq] at hv
    have := o.only v hv.1 hid
    simp only [List.mem_cons, List.not_mem_nil, or_false] at this
    rw [this] at hv
    exact absurd rfl hv.2
  · have a1 := again_handle l (2 * l) h left e
    have a2 := again_room l (2 * l) h left e
    have a3 := again_bases l l (2 * l) h left e
    have b1 : (WinRingJob.undo l (2 * l) h left a e).handle = some h := rfl
    have b2 : (WinRingJob.undo l (2 * l) h left a e).room = none := rfl
    have b3 : (WinRingJob.undo l (2 * l) h left a e).bases l = [a] := rfl
    constructor <;> simp [did, a1, a2, a3, b1, b2, b3]
    · exact .of_eq rfl rfl
    · exact fun v h1 _ => h1
    · intro v h1 _ h2
      exact absurd h1 h2

/-- `CloseHandle`. -/
theorem ringStep_finish {t : Target} {s0 s : Win} (w : WinFine t s0 s) {len h : Nat} {ret : Result Nat}
    (ok : WinJobOk t s0 s len (.finish h ret)) :
    ∃ s' j', (WinRingJob.finish h ret).step t s = .ok (s', j') ∧ WinFine t s0 s' ∧
      WinJobOk t s0 s' len j' ∧ WinMinds len (.finish h ret) j' s s' ∧
      ∀ a, ret = .ok a → WinNewRing t s0 s' len a := by
  have lt : ∀ q x, (s.dropHandle h).handles q = some x → s.handles q = some x := by
    intro q x hx
    simp only [dropHandle, closeHandle] at hx
    split at hx
    · cases hx
    · exact hx
  refine ⟨_, _, rfl, w.less (List.Sublist.refl _) (List.Sublist.refl _) lt rfl rfl rfl, ?_, ?_, ?_⟩
  · cases ret with
    | error e => trivial
    | ok a => exact ⟨h, ok.1.late, ok.1.have' _ List.mem_cons_self,
        ok.1.have' _ (List.mem_cons_of_mem _ List.mem_cons_self)⟩
  · have hb : (WinRingJob.done ret).bases len = (WinRingJob.finish h ret).bases len := by
      cases ret <;> rfl
    have b1 : (WinRingJob.done ret).handle = none := rfl
    have b2 : (WinRingJob.done ret).room = none := rfl
    have b3 : (WinRingJob.finish h ret).handle = some h := rfl
    have b4 : (WinRingJob.finish h ret).room = none := rfl
    constructor <;> simp [hb, b1, b2, b3, b4, did, dropHandle, closeHandle]
    · exact .of_eq rfl rfl
    · intro q h1 h2
      exact absurd h2.symm h1
    · exact fun b h1 => .inl h1
    · exact fun v h1 h2 => absurd h1 h2
    · exact fun b h1 h2 => absurd h1 h2
  · rintro a rfl
    obtain ⟨o, p⟩ := ok
    refine ⟨o.pos, p.ne, w.gran ▸ Nat.dvd_of_mod_eq_zero p.dvd, p.lim, ringSection len h, rfl, o.late,
      o.have' _ List.mem_cons_self, o.have' _ (List.mem_cons_of_mem _ List.mem_cons_self), ?_, ?_, o.zero, o.own⟩
    · intro v hv hid
      have := o.only v hv hid
      simpa using this
    · intro q x hx hid
      have := o.alone q x (lt q x hx) hid
      subst this
      simp only [dropHandle, closeHandle, if_pos] at hx
      cases hx

/-- One call of a creation. -/
theorem ringStep {t : Target} {s0 s : Win} (w : WinFine t s0 s) {len : Nat} (fit : 2 * len < t.lim)
    {j : WinRingJob} (ok : WinJobOk t s0 s len j) :
    ∃ s' j', j.step t s = .ok (s', j') ∧ WinFine t s0 s' ∧ WinJobOk t s0 s' len j' ∧ WinMinds len j j' s s' := by
  cases j with
  | create l => cases ok; exact ringStep_create w fit
  | reserve l full h left => exact ringStep_reserve w ok
  | release l full h left pg => exact ringStep_release w ok
  | first l full h left pg => exact ringStep_first w ok
  | second l full h left pg a => exact ringStep_second w ok
  | undo l full h left a e => exact ringStep_undo w ok
  | finish h ret =>
    obtain ⟨s', j', h1, h2, h3, h4, -⟩ := ringStep_finish w ok
    exact ⟨s', j', h1, h2, h3, h4⟩
  | done ret => exact ⟨_, _, rfl, w, ok, .none rfl rfl rfl rfl rfl rfl rfl rfl rfl rfl rfl⟩

/-- Somebody else's turn. -/
theorem WinOwnSec.other {t : Target} {s0 s s' : Win} {len h : Nat} {vs : List WinView} {j : WinRingJob}
    (o : WinOwnSec s0 s len h vs) (what : WinOutside t len j s s') (hj : j.handle = some h)
    (hb : ∀ v, v ∈ vs → v.base ∈ j.bases len) : WinOwnSec s0 s' len h vs := by
  obtain ⟨h1, h2, h3, h4⟩ := what.own h _ hj o.handle
  refine ⟨o.pos, o.late, (what.handle h hj).trans o.handle, ?_, ?_, fun v hv hid => o.only v (h1 v hv hid) hid,
    fun v hv => what.views v (o.have' v hv) (hb v hv), fun q x hx hid => o.alone q x (h2 q x hx hid) hid⟩
  · rw [show h = (ringSection len h).id from rfl, h3]; exact o.zero
  · rw [show h = (ringSection len h).id from rfl, h4]; exact o.own

theorem WinPlace.other {t : Target} {s s' : Win} {len pg : Nat} {j : WinRingJob} (p : WinPlace t s len pg)
    (what : WinOutside t len j s s') : WinPlace t s' len pg :=
  ⟨p.ne, what.gran ▸ p.dvd, p.lim⟩

theorem WinFine.other {t : Target} {s0 s s' : Win} {len : Nat} {j : WinRingJob} (w : WinFine t s0 s)
    (what : WinOutside t len j s s') : WinFine t s0 s' :=
  ⟨what.wf, what.laid, what.space, what.page.trans w.page, what.gran.trans w.gran, Nat.le_trans w.next what.next⟩

theorem WinJobOk.other {t : Target} {s0 s s' : Win} {len : Nat} {j : WinRingJob} (ok : WinJobOk t s0 s len j)
    (what : WinOutside t len j s s') : WinJobOk t s0 s' len j := by
  cases j with
  | create l => exact ok
  | reserve l full h left =>
    exact ⟨ok.1, ok.2.1, ok.2.2.other what rfl (fun v hv => by cases hv)⟩
  | release l full h left pg =>
    obtain ⟨h1, h2, o, p, r⟩ := ok
    exact ⟨h1, h2, o.other what rfl (fun v hv => by cases hv), p.other what, what.reserved _ rfl r⟩
  | first l full h left pg =>
    obtain ⟨h1, h2, o, p⟩ := ok
    exact ⟨h1, h2, o.other what rfl (fun v hv => by cases hv), p.other what⟩
  | second l full h left pg a =>
    obtain ⟨h1, h2, h3, o, p⟩ := ok
    refine ⟨h1, h2, h3, o.other what rfl (fun v hv => ?_), p.other what⟩
    simp only [List.mem_cons, List.not_mem_nil, or_false] at hv
    rw [hv]; exact List.mem_cons_self
  | undo l full h left a e =>
    obtain ⟨h1, h2, o⟩ := ok
    refine ⟨h1, h2, o.other what rfl (fun v hv => ?_)⟩
    simp only [List.mem_cons, List.not_mem_nil, or_false] at hv
    rw [hv]; exact List.mem_cons_self
  | finish h ret =>
    cases ret with
    | error e => exact WinOwnSec.other ok what rfl (fun v hv => by cases hv)
    | ok a =>
      obtain ⟨o, p⟩ := ok
      refine ⟨o.other what rfl (fun v hv => ?_), p.other what⟩
      simp only [List.mem_cons, List.not_mem_nil, or_false] at hv
      rcases hv with rfl | rfl
      · exact List.mem_cons_self
      · exact List.mem_cons_of_mem _ List.mem_cons_self
  | done ret =>
    cases ret with
    | error e => trivial
    | ok a =>
      obtain ⟨h, h0, h1, h2⟩ := ok
      exact ⟨h, h0, what.views _ h1 List.mem_cons_self,
        what.views _ h2 (List.mem_cons_of_mem _ List.mem_cons_self)⟩

/-- How many calls are still to come at most. -/
def WinRingJob.rank : WinRingJob → Nat
  | .create _ => 32
  | .reserve _ _ _ left => 5 * left + 6
  | .release _ _ _ left _ => 5 * left + 5
  | .first _ _ _ left _ => 5 * left + 4
  | .second _ _ _ left _ _ => 5 * left + 3
  | .undo _ _ _ left _ _ => 5 * left + 2
  | .finish _ _ => 1
  | .done _ => 0

theorem again_rank (len full h left : Nat) (e : Error) :
    (WinRingJob.again len full h left e).rank ≤ 5 * left + 1 := by
  cases left <;> simp only [again, WinRingJob.rank] <;> omega

theorem ringStep_rank {t : Target} {s s' : Win} {j j' : WinRingJob} (h : j.step t s = .ok (s', j')) :
    j'.rank ≤ j.rank - 1 := by
  cases j <;> simp only [WinRingJob.step, bind, Except.bind, pure, Except.pure] at h <;> (repeat' split at h) <;>
    first
    | (cases h; done)
    | (cases h; simp only [WinRingJob.rank]; omega)
    | (cases h; exact Nat.le_trans (again_rank ..) (by simp only [WinRingJob.rank]; omega))

/-- How many calls have been made at least. -/
def WinRingJob.floor : WinRingJob → Nat
  | .create _ => 0
  | .reserve _ _ _ left => 3 * (5 - left) + 1
  | .release _ _ _ left _ => 3 * (5 - left) + 2
  | .first _ _ _ left _ => 3 * (5 - left) + 3
  | .second _ _ _ left _ _ => 3 * (5 - left) + 4
  | .undo _ _ _ left _ _ => 3 * (5 - left) + 5
  | .finish _ (.error e) => if e.op = .ringAllocate then 0 else 19
  | .done (.error e) => if e.op = .ringAllocate then 0 else 20
  | _ => 0

theorem again_floor (len full h left : Nat) (e : Error) :
    (WinRingJob.again len full h left e).floor ≤ 3 * (5 - left) + 4 := by
  cases left <;> simp only [again, WinRingJob.floor]
  · split <;> omega
  · omega

theorem ringStep_floor {t : Target} {s s' : Win} {j j' : WinRingJob} (h : j.step t s = .ok (s', j'))
    (hc : ∀ r, j ≠ .done r) : j'.floor ≤ j.floor + 1 := by
  cases j with
  | create l =>
    simp only [WinRingJob.step, bind, Except.bind, pure, Except.pure] at h
    split at h
    · cases h
    split at h
    · cases h
    rename_i hn
    simp only [Win.handleNew, bind, Except.bind, pure, Except.pure] at hn
    split at hn
    · cases hn
    split at hn <;> cases hn <;> cases h
    · simp [WinRingJob.floor, Error.lastOsError, Error.system]
    · simp [WinRingJob.floor]
  | reserve l full hd left =>
    simp only [WinRingJob.step, pure, Except.pure] at h
    split at h <;> cases h
    · simp [WinRingJob.floor, Error.lastOsError, Error.system]
    · simp [WinRingJob.floor]
  | release l full hd left pg => cases h; simp [WinRingJob.floor]
  | first l full hd left pg =>
    simp only [WinRingJob.step, bind, Except.bind, pure, Except.pure] at h
    split at h
    · cases h
    split at h <;> cases h
    · exact Nat.le_trans (again_floor ..) (by simp only [WinRingJob.floor]; omega)
    · simp [WinRingJob.floor]
  | second l full hd left pg a =>
    simp only [WinRingJob.step, bind, Except.bind, pure, Except.pure] at h
    split at h
    · cases h
    split at h <;> cases h <;> simp [WinRingJob.floor]
  | undo l full hd left a e =>
    cases h
    exact Nat.le_trans (again_floor ..) (by simp only [WinRingJob.floor]; omega)
  | finish hd ret =>
    cases h
    cases ret with
    | ok a => simp [WinRingJob.floor]
    | error e => simp only [WinRingJob.floor]; split <;> omega
  | done r => exact absurd rfl (hc r)

theorem ringStep_done {t : Target} {s s' : Win} {j' : WinRingJob} {r : Result Nat}
    (h : (WinRingJob.done r).step t s = .ok (s', j')) : s' = s ∧ j' = .done r := by
  cases h
  exact ⟨rfl, rfl⟩

theorem again_done (len full h left : Nat) (e : Error) (r : Result Nat) :
    WinRingJob.again len full h left e ≠ .done r := by
  cases left <;> intro h <;> cases h

/-- How a creation comes to return. -/
theorem ringStep_ends {t : Target} {s s' : Win} {j : WinRingJob} {r : Result Nat}
    (h : j.step t s = .ok (s', .done r)) :
    j = .done r ∨ (∃ q, j = .finish q r) ∨ ((∃ l, j = .create l) ∧ ∃ e, r = .error e) := by
  cases j with
  | create l =>
    simp only [WinRingJob.step, bind, Except.bind, pure, Except.pure] at h
    split at h
    · cases h
    split at h
    · cases h
    split at h <;> cases h
    exact .inr (.inr ⟨⟨_, rfl⟩, _, rfl⟩)
  | reserve l full hd left =>
    simp only [WinRingJob.step, pure, Except.pure] at h
    split at h <;> cases h
  | release l full hd left pg => cases h
  | first l full hd left pg =>
    simp only [WinRingJob.step, bind, Except.bind, pure, Except.pure] at h
    split at h
    · cases h
    split at h
    · simp only [Except.ok.injEq, Prod.mk.injEq] at h
      exact absurd h.2 (again_done _ _ _ _ _ _)
    · cases h
  | second l full hd left pg a =>
    simp only [WinRingJob.step, bind, Except.bind, pure, Except.pure] at h
    split at h
    · cases h
    split at h <;> cases h
  | undo l full hd left a e =>
    simp only [WinRingJob.step, pure, Except.pure, Except.ok.injEq, Prod.mk.injEq] at h
    exact absurd h.2 (again_done _ _ _ _ _ _)
  | finish hd ret => cases h; exact .inr (.inl ⟨_, rfl⟩)
  | done ret => cases h; exact .inl rfl

/-- What holds all along. -/
structure WinRunOk (t : Target) (s0 : Win) (len n : Nat) (s : Win) (j : WinRingJob) : Prop where
  fine : WinFine t s0 s
  job : WinJobOk t s0 s len j
  rank : j.rank ≤ 32 - n
  floor : j.floor ≤ n

theorem winRun_ok {t : Target} {len : Nat} {s0 : Win} (wf : WinWf t s0) (laid : WinLaid t s0)
    (space : WinRoom s0) (fit : 2 * len < t.lim) {n : Nat} {s : Win} {j : WinRingJob}
    (run : WinRun t len s0 n s j) : WinRunOk t s0 len n s j := by
  induction run with
  | start => exact ⟨⟨wf, laid, space, rfl, rfl, Nat.le_refl _⟩, rfl, Nat.le_refl _, Nat.le_refl _⟩
  | own before step ih =>
    obtain ⟨s', j', h, w, o, -⟩ := ringStep ih.fine fit ih.job
    rw [step] at h
    cases h
    have h1 := ringStep_rank step
    have h2 := ih.rank
    refine ⟨w, o, by omega, ?_⟩
    rename_i n s j s1 j1
    by_cases hd : ∃ r, j = .done r
    · obtain ⟨r, rfl⟩ := hd
      obtain ⟨-, rfl⟩ := ringStep_done step
      have := ih.floor
      omega
    · have := ringStep_floor step (fun r e => hd ⟨r, e⟩)
      have := ih.floor
      omega
  | other before what ih => exact ⟨ih.fine.other what, ih.job.other what, ih.rank, ih.floor⟩

/-- The views of a creation are those of its section. -/
theorem WinJobOk.view_sec {t : Target} {s0 s : Win} {len : Nat} {j : WinRingJob} (ok : WinJobOk t s0 s len j)
    {h : Nat} (hj : j.handle = some h) : ∃ vs, WinOwnSec s0 s len h vs ∧ ∀ v, v ∈ vs → v.base ∈ j.bases len := by
  cases j with
  | create l => cases hj
  | reserve l full h left => cases hj; exact ⟨_, ok.2.2, fun v hv => by cases hv⟩
  | release l full h left pg => cases hj; exact ⟨_, ok.2.2.1, fun v hv => by cases hv⟩
  | first l full h left pg => cases hj; exact ⟨_, ok.2.2.1, fun v hv => by cases hv⟩
  | second l full h left pg a =>
    cases hj
    refine ⟨_, ok.2.2.2.1, fun v hv => ?_⟩
    simp only [List.mem_cons, List.not_mem_nil, or_false] at hv
    rw [hv]; exact List.mem_cons_self
  | undo l full h left a e =>
    cases hj
    refine ⟨_, ok.2.2, fun v hv => ?_⟩
    simp only [List.mem_cons, List.not_mem_nil, or_false] at hv
    rw [hv]; exact List.mem_cons_self
  | finish h ret =>
    cases hj
    cases ret with
    | error e => exact ⟨[], ok, fun v hv => by cases hv⟩
    | ok a =>
      refine ⟨_, ok.1, fun v hv => ?_⟩
      simp only [List.mem_cons, List.not_mem_nil, or_false] at hv
      rcases hv with rfl | rfl
      · exact List.mem_cons_self
      · exact List.mem_cons_of_mem _ List.mem_cons_self
  | done ret => cases hj

/-- Where a creation has views there are views. -/
theorem WinJobOk.bases_there {t : Target} {s0 s : Win} {len : Nat} {j : WinRingJob} (ok : WinJobOk t s0 s len j)
    {b : Nat} (hb : b ∈ j.bases len) : ∃ v, v ∈ s.views ∧ v.base = b := by
  cases j with
  | create l => cases hb
  | reserve l full h left => cases hb
  | release l full h left pg => cases hb
  | first l full h left pg => cases hb
  | second l full h left pg a =>
    simp only [bases, List.mem_cons, List.not_mem_nil, or_false] at hb
    subst hb
    exact ⟨_, ok.2.2.2.1.have' _ List.mem_cons_self, rfl⟩
  | undo l full h left a e =>
    simp only [bases, List.mem_cons, List.not_mem_nil, or_false] at hb
    subst hb
    exact ⟨_, ok.2.2.have' _ List.mem_cons_self, rfl⟩
  | finish h ret =>
    cases ret with
    | error e => cases hb
    | ok a =>
      simp only [bases, List.mem_cons, List.not_mem_nil, or_false] at hb
      rcases hb with rfl | rfl
      · exact ⟨_, ok.1.have' _ List.mem_cons_self, rfl⟩
      · exact ⟨_, ok.1.have' _ (List.mem_cons_of_mem _ List.mem_cons_self), rfl⟩
  | done ret =>
    cases ret with
    | error e => cases hb
    | ok a =>
      obtain ⟨h, -, h1, h2⟩ := ok
      simp only [bases, List.mem_cons, List.not_mem_nil, or_false] at hb
      rcases hb with rfl | rfl
      · exact ⟨_, h1, rfl⟩
      · exact ⟨_, h2, rfl⟩

theorem WinJobOk.room_there {t : Target} {s0 s : Win} {len : Nat} {j : WinRingJob} (ok : WinJobOk t s0 s len j)
    {r : Nat × Nat} (hr : j.room = some r) : r ∈ s.reserved := by
  cases j <;> first | (cases hr; done) | skip
  cases hr
  exact ok.2.2.2.2

/-- A call of one creation, seen from another. -/
theorem ringStep_outside {t : Target} {s0 s0' s s' : Win} {len len' : Nat} {j j1 i : WinRingJob}
    (w : WinFine t s0 s) (ok : WinJobOk t s0 s len j) (ok' : WinJobOk t s0' s len' i)
    (w' : WinFine t s0 s') (ok1 : WinJobOk t s0 s' len j1) (m : WinMinds len j j1 s s') (ap : WinApart len len' j i) :
    WinOutside t len' i s s' ∧ WinApart len len' j1 i := by
  refine ⟨⟨w'.wf, w'.laid, w'.space, m.page, m.gran, m.bytes.next, ?_, ?_, ?_, ?_⟩, ?_, ?_, ?_⟩
  · intro h hi
    refine m.handles h (fun hj => ap.handle h hj hi) (fun hj => ?_)
    rcases m.newHandle h hj with hj | hj
    · exact ap.handle h hj hi
    · obtain ⟨vs, o, -⟩ := ok'.view_sec hi
      have := (w.wf.handles h _ o.handle).1
      omega
  · intro r hi hr
    refine (m.reserved r (fun hj => ap.room r hj hi) (fun hj => ?_)).mpr hr
    rcases m.newRoom r hj with hj | hj
    · exact ap.room r hj hi
    · exact hj hr
  · intro v hv hi
    refine (m.views v (fun hj => ap.bases _ hj hi) (fun hj => ?_)).mpr hv
    rcases m.newViews _ hj with hj | hj
    · exact ap.bases _ hj hi
    · exact hj v hv rfl
  · intro h sec hi hs
    obtain ⟨vs, o, -⟩ := ok'.view_sec hi
    rw [o.handle] at hs
    cases hs
    have lt := (w.wf.handles h _ o.handle).1
    refine ⟨fun v hv hid => ?_, fun q x hx hid => ?_, (m.bytes.old h lt).1, (m.bytes.old h lt).2⟩
    · by_cases hm : v ∈ s.views
      · exact hm
      · exfalso
        obtain ⟨g, hg, hs⟩ := m.section' v hv hm
        obtain ⟨vs', o', -⟩ := ok.view_sec hg
        rw [o'.handle] at hs
        rw [← Option.some.inj hs] at hid
        exact ap.handle g hg ((show g = h from hid) ▸ hi)
    · by_cases h1 : j1.handle = some q
      · exfalso
        obtain ⟨vs', o', -⟩ := ok1.view_sec h1
        rw [o'.handle] at hx
        cases hx
        have hqh : q = h := hid
        subst hqh
        rcases m.newHandle q h1 with hj | hj
        · exact ap.handle q hj hi
        · omega
      · by_cases h2 : j.handle = some q
        · rw [m.goneHandle q h2 h1] at hx
          cases hx
        · rw [← m.handles q h2 h1]
          exact hx
  · intro h h1 hi
    rcases m.newHandle h h1 with hj | hj
    · exact ap.handle h hj hi
    · obtain ⟨vs, o, -⟩ := ok'.view_sec hi
      have := (w.wf.handles h _ o.handle).1
      omega
  · intro r h1 hi
    rcases m.newRoom r h1 with hj | hj
    · exact ap.room r hj hi
    · exact hj (ok'.room_there hi)
  · intro b h1 hi
    rcases m.newViews b h1 with hj | hj
    · exact ap.bases b hj hi
    · obtain ⟨v, hv, hb⟩ := ok'.bases_there hi
      exact hj v hv hb

end Vmap
