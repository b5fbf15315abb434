import Verif.Spec.ForkRing
import Verif.Proofs.Fork
import Verif.Proofs.RingView
/- Helper lemmas: rings after `fork`. -/
namespace Vmap
open Kernel Spec

/-! ### What actions do to memory that only the ring's pages lead to -/

/-- Object `o` is reached through the pages of `[ptr, ptr+2*len)` at most. -/
structure Kept (k : Kernel) (ptr len : Nat) (o : Obj) : Prop where
  old : o < k.fresh
  fds : ∀ d f, k.fds d = some f → f.obj ≠ o
  names : ∀ s, k.names s ≠ some o
  pages : ∀ q e, k.pt q = some e → e.copy ≠ some o ∧
    (e.obj = o → ptr ≤ q * k.page ∧ q * k.page < ptr + 2 * len)

theorem Kept.step {k k' : Kernel} {S ptr len o} (h : Kept k ptr len o) (g : Change k k' S) :
    Kept k' ptr len o := by
  have ho := h.old
  refine ⟨Nat.lt_of_lt_of_le ho g.fresh, ?_, ?_, ?_⟩
  · intro d f hd
    rcases g.fds d f hd with h1 | h1 | ⟨s, h1⟩
    · exact h.fds d f h1
    · omega
    · intro hf; rw [hf] at h1; exact h.names s h1
  · intro s hs
    rcases g.names s o hs with h1 | h1
    · exact h.names s h1
    · omega
  · intro q e he
    rw [g.page]
    rcases g.entry q e he with ⟨e0, a1, a2, a3, a4⟩ | ⟨a1, a2 | ⟨d, f, a2, a3⟩⟩
    · obtain ⟨b1, b2⟩ := h.pages q e0 a1
      refine ⟨?_, by rw [a2]; exact b2⟩
      rcases a4 with a4 | a4 | ⟨c, a4, a5⟩
      · rw [a4]; exact b1
      · rw [a4]; intro hh; cases hh
      · rw [a4]; intro hh; injection hh with hh; omega
    · exact ⟨(by rw [a1]; intro hh; cases hh), by omega⟩
    · exact ⟨(by rw [a1]; intro hh; cases hh), fun hh => absurd (a3.trans hh) (h.fds d f a2)⟩

/-- The size stays. -/
theorem Kept.size {k k' : Kernel} {S ptr len o} (h : Kept k ptr len o) (g : Change k k' S) :
    k'.size o = k.size o := by
  rcases g.size o h.old with h1 | ⟨d, f, h1, h2⟩ | ⟨s, h1⟩
  · exact h1
  · exact absurd h2 (h.fds d f h1)
  · exact absurd h1 (h.names s)

/-- The bytes stay, if no page of the ring is touched. -/
theorem Kept.data {k k' : Kernel} {S ptr len o} (h : Kept k ptr len o) (g : Change k k' S)
    (hS : ∀ q, S q → ¬ (ptr ≤ q * k.page ∧ q * k.page < ptr + 2 * len)) : k'.data o = k.data o := by
  rcases g.data o h.old with h1 | ⟨d, f, h1, h2⟩ | ⟨s, h1⟩ | ⟨q, e, hq, h1, h2⟩
  · exact h1
  · exact absurd h2 (h.fds d f h1)
  · exact absurd h1 (h.names s)
  · rcases h2 with ⟨-, h2⟩ | h2
    · exact absurd ((h.pages q e h1).2 h2) (hS q hq)
    · exact absurd h2 (h.pages q e h1).1

/-- Only stores change what is in memory, files apart. -/
theorem Kept.data_act {t : Target} {k : Kernel} {ptr len o} (w : Wf t k) (h : Kept k ptr len o) {a : Act}
    (hs : ∀ x b, a = .store x b → ¬ (ptr ≤ x / k.page * k.page ∧ x / k.page * k.page < ptr + 2 * len)) :
    (a.run t k).data o = k.data o := by
  have ch := (act_change w a).2
  have ho := h.old
  cases a with
  | store x b => exact h.data ch (fun q hq => by rw [show q = x / k.page from hq]; exact hs x b rfl)
  | mmap addr len prot flags fd off =>
    rcases mmap_cases t k addr len prot flags fd off with
      ⟨pt', e, he, -⟩ | ⟨p, -, -, -, -, -, -, -, h8⟩
    · simp only [Act.run, he]
    · rcases h8 with ⟨-, he⟩ | ⟨-, d, f, -, -, -, -, he⟩
      · simp only [Act.run, he]
        exact funext fun j => if_neg (by omega)
      · simp only [Act.run, he]
  | munmap addr len =>
    simp only [Act.run, Kernel.munmap, record, munmapCore]
    split <;> rfl
  | mprotect addr len prot =>
    rcases mprotect_cases k addr len prot with ⟨e, he⟩ | ⟨-, -, he⟩ <;>
      (simp only [Act.run, he]; rfl)
  | madvise addr len adv =>
    rcases madvise_cases k addr len adv with ⟨e, he⟩ | ⟨-, -, he⟩ <;>
      (simp only [Act.run, he]; rfl)
  | mlock addr len on =>
    rcases mlock_cases k addr len on with ⟨e, he⟩ | ⟨-, -, he⟩ <;>
      (simp only [Act.run, he]; rfl)
  | msync addr len sync => exact h.data ch (fun _ hq => hq.elim)
  | memfd => exact h.data ch (fun _ hq => hq.elim)
  | ftruncate fd len => exact h.data ch (fun _ hq => hq.elim)
  | fstat fd => exact h.data ch (fun _ hq => hq.elim)
  | close fd => exact h.data ch (fun _ hq => hq.elim)
  | «open» path write creat excl trunc => exact h.data ch (fun _ hq => hq.elim)
  | pwrite fd i b => exact h.data ch (fun _ hq => hq.elim)

/-! ### Two processes -/

theorem view_put (f : Family) (p : Who) (k' : Kernel) :
    (f.put p k').view p = k' ∧ (f.put p k').view p.other = besides k' (f.view p.other) := by
  cases p <;> exact ⟨rfl, rfl⟩

/-- Process `p` has a circular mapping of `o`, to which nothing but the ring's pages leads, in either
process. -/
structure RingFork (t : Target) (p : Who) (f : Family) (ptr len : Nat) (o : Obj) : Prop where
  ap : Apart t (f.view p) (f.view p.other)
  mirror : (f.view p).Mirror t ptr len o
  mine : Kept (f.view p) ptr len o
  theirs : Kept (f.view p.other) ptr len o

/-- Memory that stays is "other activity". -/
theorem RingFork.other {t : Target} {v v' : Kernel} {ptr len o} (w : Wf t v) (w' : Wf t v')
    (m : v.Mirror t ptr len o) (kp : Kept v' ptr len o) (hp : v'.page = v.page)
    (hpt : ∀ q e, ptr ≤ q * v.page → q * v.page < ptr + 2 * len → v.pt q = some e →
      ∃ l, v'.pt q = some { e with locked := l })
    (hd : v'.data o = v.data o) (hs : v'.size o = v.size o) :
    Kernel.Apart t v v' ptr len ∧ v'.Mirror t ptr len o := by
  have a : Kernel.Apart t v v' ptr len := by
    refine ⟨hp, hpt, ?_, ?_, w'⟩
    · intro q e h1 h2 he
      obtain ⟨e1, c1, c2, -⟩ := m.entry w h1 h2
      rw [he] at c1; injection c1 with c1; subst c1
      rw [c2]; exact ⟨hd, hs⟩
    · intro q e h1 h2 he q2 e2 he2 ho
      obtain ⟨e1, c1, c2, -⟩ := m.entry w h1 h2
      rw [he] at c1; injection c1 with c1; subst c1
      rw [c2] at ho
      obtain ⟨b1, b2⟩ := kp.pages q2 e2 he2
      rcases ho with ho | ho
      · rw [← hp]; exact b2 ho
      · exact absurd ho b1
  exact ⟨a, (m.apart w a).1⟩

theorem RingFork.fork {t : Target} {k : Kernel} {ptr len o} (w : Wf t k) (m : k.Mirror t ptr len o)
    (ow : Owned k ptr len o) (cl : Closed k ptr len) (p : Who) :
    RingFork t p (Family.fork t k) ptr len o ∧
      Kernel.Apart t k ((Family.fork t k).view p) ptr len := by
  have h0 := m.len_pos
  have hin := page_inside (a := ptr + 0) (len := len) m.ptr_dvd w.page_pos (by omega) (by omega)
  obtain ⟨e0, a1, a2, a3⟩ := m.entry w hin.1 hin.2
  have hold : o < k.fresh := by rw [← a2]; exact (w.objs _ e0 a1).1
  obtain ⟨c1, c2⟩ := cl _ e0 hin.1 hin.2 a1
  rw [a2] at c1 c2
  have hcopy : ∀ q e, k.pt q = some e → e.copy ≠ some o := by
    intro q e he hc
    exact ((w.excl q e o he hc).1 _ e0 a1).1 a2
  have kp : ∀ p, Kept ((Family.fork t k).view p) ptr len o := by
    intro p
    cases p with
    | parent =>
      exact ⟨Nat.lt_of_lt_of_le hold (Nat.le_add_right _ _), c1, c2,
        fun q e he => ⟨hcopy q e he, fun ho => ow q e he (.inl ho)⟩⟩
    | child =>
      refine ⟨Nat.lt_of_lt_of_le hold (Nat.le_add_right _ _), c1, c2, fun q e' he' => ?_⟩
      obtain ⟨e, h1, rfl⟩ := fork_entry (t := t) he'
      refine ⟨fun hc => ?_, fun ho => ow q e h1 (.inl ho)⟩
      have := (fork_copy hc).1
      omega
  have ap : Apart t ((Family.fork t k).view p) ((Family.fork t k).view p.other) := by
    cases p
    · exact fork_apart w
    · exact (fork_apart w).symm
  have hd : ((Family.fork t k).view p).data o = k.data o := by
    cases p <;> exact fork_old (t := t) hold
  obtain ⟨b1, b2⟩ := RingFork.other w ap.wv m (kp p) (by cases p <;> rfl) (by
    intro q e h1 h2 he
    cases p with
    | parent => exact ⟨e.locked, he⟩
    | child =>
      obtain ⟨e1, d1, -, d3⟩ := m.entry w h1 h2
      rw [he] at d1; injection d1 with d1; subst d1
      refine ⟨false, ?_⟩
      show (k.pt q).map _ = _
      rw [he, Option.map_some, d3, Option.map_none]) hd (by cases p <;> rfl)
  exact ⟨⟨ap, b2, kp p, kp p.other⟩, b1⟩

theorem RingFork.act_theirs {t : Target} {p : Who} {f : Family} {ptr len o} (h : RingFork t p f ptr len o)
    {a : Act} (hs : StoresElsewhere ptr len a) :
    RingFork t p (f.act t p.other a) ptr len o ∧
      Kernel.Apart t (f.view p) ((f.act t p.other a).view p) ptr len := by
  have ap' := Family.apart_act (t := t) p.other a (by rw [other_other]; exact h.ap.symm)
  have e1 := (view_act t f p.other a).1
  have e2 := (view_act t f p.other a).2
  rw [other_other] at ap' e2
  have ch := (act_change h.ap.wu a).2
  have hpg : (f.view p.other).page = (f.view p).page := by rw [h.ap.same]; rfl
  have hdt : (f.view p.other).data = (f.view p).data := by rw [h.ap.same]; rfl
  have hsz : (f.view p.other).size = (f.view p).size := by rw [h.ap.same]; rfl
  have kt := h.theirs.step ch
  have km : Kept ((f.act t p.other a).view p) ptr len o := by
    rw [e2]
    refine ⟨kt.old, h.mine.fds, kt.names, ?_⟩
    intro q e he
    have : (besides (a.run t (f.view p.other)) (f.view p)).page = (f.view p).page := by
      rw [← hpg]; exact ch.page
    rw [this]
    exact h.mine.pages q e he
  have hd : (a.run t (f.view p.other)).data o = (f.view p.other).data o := by
    refine h.theirs.data_act h.ap.wu ?_
    intro x b hx
    subst hx
    rw [hpg]
    intro hh
    refine hs ⟨?_, ?_⟩
    · exact Nat.le_trans hh.1 (Nat.div_mul_le_self _ _)
    · obtain ⟨c, hc⟩ := h.mirror.ptr_dvd
      obtain ⟨d, hd⟩ := h.mirror.len_dvd
      have hpos := h.ap.wv.page_pos
      generalize (f.view p).page = u at *
      have h1 : x < (x / u + 1) * u := by
        rw [Nat.succ_mul]
        have h3 := Nat.div_add_mod x u
        have := Nat.mod_lt x hpos
        rw [Nat.mul_comm] at h3
        omega
      have h2 : (x / u + 1) * u ≤ ptr + 2 * len := by
        have e : ptr + 2 * len = (c + 2 * d) * u := by rw [hc, hd]; grind
        rw [e] at hh ⊢
        have := Nat.lt_of_mul_lt_mul_right hh.2
        exact Nat.mul_le_mul_right u this
      omega
  obtain ⟨b1, b2⟩ := RingFork.other h.ap.wv ap'.wu h.mirror km (by rw [e2, ← hpg]; exact ch.page)
    (by intro q e _ _ he; rw [e2]; exact ⟨e.locked, he⟩)
    (by rw [e2, ← hdt]; exact hd) (by rw [e2, ← hsz]; exact (h.theirs.size ch :))
  exact ⟨⟨ap'.symm, b2, km, by rw [e1]; exact kt⟩, b1⟩

theorem RingFork.act_mine {t : Target} {p : Who} {f : Family} {ptr len o} (h : RingFork t p f ptr len o)
    {a : Act} (hs : Spares (f.view p) ⟨ptr, 2 * len⟩ a) :
    RingFork t p (f.act t p a) ptr len o ∧
      Kernel.Apart t (f.view p) ((f.act t p a).view p) ptr len := by
  have ap' := Family.apart_act (t := t) p a h.ap
  have e1 := (view_act t f p a).1
  have e2 := (view_act t f p a).2
  have ch := (act_change h.ap.wv a).2
  have hpg : (f.view p.other).page = (f.view p).page := by rw [h.ap.same]; rfl
  have hno : ∀ q, touches (f.view p) a q →
      ¬ (ptr ≤ q * (f.view p).page ∧ q * (f.view p).page < ptr + 2 * len) := by
    intro q hq hh
    refine hs (q * (f.view p).page - ptr) (by show _ < 2 * len; omega) ?_
    show touches _ _ ((ptr + (q * (f.view p).page - ptr)) / _)
    rw [show ptr + (q * (f.view p).page - ptr) = q * (f.view p).page by omega,
      Nat.mul_div_cancel _ h.ap.wv.page_pos]
    exact hq
  have km := h.mine.step ch
  have kt : Kept ((f.act t p a).view p.other) ptr len o := by
    rw [e2]
    refine ⟨km.old, h.theirs.fds, km.names, ?_⟩
    intro q e he
    have : (besides (a.run t (f.view p)) (f.view p.other)).page = (f.view p.other).page := by
      rw [hpg]; exact ch.page
    rw [this]
    exact h.theirs.pages q e he
  obtain ⟨b1, b2⟩ := RingFork.other h.ap.wv ap'.wv h.mirror (by rw [e1]; exact km)
    (by rw [e1]; exact ch.page)
    (by intro q e h1 h2 he; rw [e1, ch.pt q (fun hq => hno q hq ⟨h1, h2⟩)]; exact ⟨e.locked, he⟩)
    (by rw [e1]; exact h.mine.data ch hno) (by rw [e1]; exact h.mine.size ch)
  exact ⟨⟨ap', b2, by rw [e1]; exact km, kt⟩, b1⟩

theorem RingFork.put {t : Target} {p : Who} {f : Family} {ptr len o} (h : RingFork t p f ptr len o)
    {k' : Kernel} (sd : SameButData (f.view p) k') : RingFork t p (f.put p k') ptr len o := by
  obtain ⟨e1, e2⟩ := view_put f p k'
  have hpg : (f.view p.other).page = k'.page := by rw [h.ap.same]; exact sd.page.symm
  have hfr : (f.view p.other).fresh = k'.fresh := by rw [h.ap.same]; exact sd.fresh.symm
  have hnm : (f.view p.other).names = k'.names := by rw [h.ap.same]; exact sd.names.symm
  have wu : Wf t (besides k' (f.view p.other)) :=
    h.ap.wu.sub hpg.symm (fun _ _ x => x) (fun _ _ x => x)
      (fun s o x => by rw [hnm]; exact x) (Nat.le_of_eq hfr) (Nat.le_refl _)
  refine ⟨?_, by rw [e1]; exact h.mirror.mono sd, ?_, ?_⟩
  · rw [e1, e2]
    refine ⟨rfl, h.ap.wv.sameButData sd, wu, ?_, ?_⟩
    · intro q e c he
      rw [sd.pt] at he
      exact h.ap.vu q e c he
    · intro q e c he hc
      obtain ⟨x1, x2⟩ := h.ap.uv q e c he hc
      exact ⟨fun q' e' he' => x1 q' e' (by rw [← sd.pt]; exact he'),
        fun d g hg => x2 d g (by rw [← sd.fds]; exact hg)⟩
  · rw [e1]
    exact ⟨by rw [sd.fresh]; exact h.mine.old, by rw [sd.fds]; exact h.mine.fds,
      by rw [sd.names]; exact h.mine.names, by rw [sd.pt, sd.page]; exact h.mine.pages⟩
  · rw [e2]
    refine ⟨?_, h.theirs.fds, ?_, ?_⟩
    · show o < k'.fresh
      rw [← hfr]; exact h.theirs.old
    · intro s
      show k'.names s ≠ _
      rw [← hnm]; exact h.theirs.names s
    · intro q e he
      show _ ∧ (_ → ptr ≤ q * k'.page ∧ q * k'.page < _)
      rw [← hpg]
      exact h.theirs.pages q e he

/-! ### Rings -/

theorem RingRep.apart {t : Target} {k k' : Kernel} {r : Ring} {o s} (h : RingRep t k r o s) (w : Wf t k)
    (a : Kernel.Apart t k k' r.ptr r.len) : RingRep t k' r o s := by
  obtain ⟨m, d⟩ := h.mirror.apart w a
  exact ⟨m, by rw [win_congr d]; exact h.all, h.total, h.qlen, h.pos⟩

theorem InfRep.apart {t : Target} {k k' : Kernel} {r : InfiniteRing} {o s} (h : InfRep t k r o s)
    (w : Wf t k) (a : Kernel.Apart t k k' r.ptr r.len) : InfRep t k' r o s := by
  obtain ⟨m, d⟩ := h.mirror.apart w a
  exact ⟨m, by rw [win_congr d]; exact h.all, h.total, h.qlen, h.le, h.pos⟩

theorem RingSince.inv {t : Target} {p : Who} {f0 f : Family} {r0 r : Ring} {s0 s : Spec.Win} {o : Obj}
    (tr : RingSince t p f0 r0 s0 f r s) (g : RingFork t p f0 r0.ptr r0.len o)
    (a : RingAt t (f0.view p) r0 s0.total) (h : RingRep t (f0.view p) r0 o s0) :
    RingFork t p f r.ptr r.len o ∧ RingAt t (f.view p) r s.total ∧ RingRep t (f.view p) r o s ∧
      r.len = r0.len := by
  induction tr with
  | start => exact ⟨g, a, h, rfl⟩
  | @call f r s op k' r' x _ below run ih =>
    obtain ⟨g, a, h, hl⟩ := ih
    obtain ⟨k1, r1, e, h', p1, p2, sd, d⟩ := ring_step h op below
    rw [e] at run
    injection run with run
    injection run with run _
    injection run with run1 run2
    subst run1 run2
    have ht : (s.step op).1.total = passed op s.total s.spare.length := by
      cases op <;> rfl
    have a' := a.call h.writeLen_eq (by rw [← ht]; exact below) e
    rw [(view_put f p k1).1, p1, p2, ht]
    exact ⟨g.put sd, a', h', hl⟩
  | @spared f r s act _ spares ih =>
    obtain ⟨g, a, h, hl⟩ := ih
    obtain ⟨g', ap⟩ := g.act_mine spares
    exact ⟨g', a.other ap, h.apart g.ap.wv ap, hl⟩
  | @theirs f r s act _ elsewhere ih =>
    obtain ⟨g, a, h, hl⟩ := ih
    obtain ⟨g', ap⟩ := g.act_theirs elsewhere
    exact ⟨g', a.other ap, h.apart g.ap.wv ap, hl⟩

theorem InfSince.inv {t : Target} {p : Who} {f0 f : Family} {r0 r : InfiniteRing} {s0 s : Spec.Lossy}
    {o : Obj} (tr : InfSince t p f0 r0 s0 f r s) (g : RingFork t p f0 r0.ptr r0.len o)
    (a : InfAt t (f0.view p) r0 s0.total) (h : InfRep t (f0.view p) r0 o s0) :
    RingFork t p f r.ptr r.len o ∧ InfAt t (f.view p) r s.total ∧ InfRep t (f.view p) r o s ∧
      r.len = r0.len := by
  induction tr with
  | start => exact ⟨g, a, h, rfl⟩
  | @call f r s op k' r' x _ below noClear feed run ih =>
    obtain ⟨g, a, h, hl⟩ := ih
    obtain ⟨k1, r1, e, h', p1, p2, sd, d⟩ := inf_step h op below feed
    rw [e] at run
    injection run with run
    injection run with run _
    injection run with run1 run2
    subst run1 run2
    have hw : r.writeLen t = .ok s.all.length := by rw [h.all_len]; rfl
    have ht : (s.step op).1.total = passed op s.total s.all.length := by
      cases op <;> first | rfl | exact absurd rfl noClear |
        (simp only [Lossy.step, Lossy.append, passed, List.length_take] <;> omega)
    have a' := a.call hw noClear (by rw [← ht]; exact below) feed e
    rw [(view_put f p k1).1, p1, p2, ht]
    exact ⟨g.put sd, a', h', hl⟩
  | @spared f r s act _ spares ih =>
    obtain ⟨g, a, h, hl⟩ := ih
    obtain ⟨g', ap⟩ := g.act_mine spares
    exact ⟨g', a.other ap, h.apart g.ap.wv ap, hl⟩
  | @theirs f r s act _ elsewhere ih =>
    obtain ⟨g, a, h, hl⟩ := ih
    obtain ⟨g', ap⟩ := g.act_theirs elsewhere
    exact ⟨g', a.other ap, h.apart g.ap.wv ap, hl⟩

end Vmap
