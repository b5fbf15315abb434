import Verif.Proofs.WinBytes
import Verif.Proofs.RingAt
import Verif.Props.WinWorld
import Verif.Spec.WinQueue
/-
Lemmas for C129: what rings hold in the course of a whole program on Windows.
-/
namespace Vmap
open Spec Kernel

/-- A step that does not drop handle `i` and is not a ring call on it leaves the handle as it is. -/
theorem win_held_other {tab : SysTable} {t : Target} {w w' : WinWorld} {i : Nat} {x : WinHandle} {op : WinOp}
    (hi : i < w.next) (held : w.held i = some x) (h : w.step tab t op = .ok w') (nodrop : op ≠ .drop i)
    (noring : ∀ r, x = .ring r → ∀ rpos wpos mem, op ≠ .ringUse i rpos wpos mem)
    (noinf : ∀ r, x = .inf r → ∀ rlen wpos mem, op ≠ .infUse i rlen wpos mem) : w'.held i = some x := by
  have put : ∀ s y, (w.put s y).held i = some x := fun s y => by
    simp only [WinWorld.put]
    rw [if_neg (by omega), held]
  have upd : ∀ s j y, j ≠ i → (w.upd s j y).held i = some x := fun s j y hj => by
    simp only [WinWorld.upd]
    rw [if_neg (fun e => hj e.symm), held]
  have onMap : ∀ {α : Type} {j : Nat} {f : MapMut → Exec (Vmap.Win × α)}, w.onMap j f = .ok w' → w'.held i = some x := by
    intro α j f h
    unfold WinWorld.onMap at h
    split at h
    · simp only [bind, Except.bind] at h
      split at h
      · cases h
      · cases h; exact held
    · cases h; exact held
  cases op with
  | mapIf o file =>
    simp only [WinWorld.step, bind, Except.bind] at h
    split at h
    · cases h
    · split at h <;> cases h
      · exact put _ _
      · exact held
  | alloc o =>
    simp only [WinWorld.step, bind, Except.bind] at h
    split at h
    · cases h
    · split at h <;> cases h
      · exact put _ _
      · exact held
  | newRing hint =>
    simp only [WinWorld.step, bind, Except.bind] at h
    split at h
    · cases h
    · split at h <;> cases h
      · exact put _ _
      · exact held
  | newInf hint =>
    simp only [WinWorld.step, bind, Except.bind] at h
    split at h
    · cases h
    · split at h <;> cases h
      · exact put _ _
      · exact held
  | drop j =>
    have hj : j ≠ i := fun e => nodrop (by rw [e])
    simp only [WinWorld.step, bind, Except.bind] at h
    split at h
    · split at h
      · cases h
      · rename_i s' _
        cases h; exact upd s' j none hj
    · cases h; exact upd _ _ _ hj
    · cases h; exact upd _ _ _ hj
    · cases h; exact held
  | flush | advise | lock | unlock | intoMapMut | intoMap => exact onMap h
  | set j idx b =>
    simp only [WinWorld.step, bind, Except.bind] at h
    split at h
    · split at h
      · cases h
      · cases h; exact held
    · cases h; exact held
  | ringUse j rpos wpos mem =>
    simp only [WinWorld.step] at h
    split at h
    · rename_i r hr
      cases h
      refine upd _ _ _ ?_
      rintro rfl
      rw [held] at hr
      cases hr
      exact noring _ rfl _ _ _ rfl
    · cases h; exact held
  | infUse j rpos wpos mem =>
    simp only [WinWorld.step] at h
    split at h
    · rename_i r hr
      cases h
      refine upd _ _ _ ?_
      rintro rfl
      rw [held] at hr
      cases hr
      exact noinf _ rfl _ _ _ rfl
    · cases h; exact held
  | files f d => cases h; exact held

/-- The handle is a ring of `len` bytes at `ptr`. -/
def RingOf (x : WinHandle) (ptr len : Nat) : Prop :=
  (∃ r, x = .ring r ∧ r.ptr = ptr ∧ r.len = len) ∨ ∃ r, x = .inf r ∧ r.ptr = ptr ∧ r.len = len

/-- Handle `i` is the ring of `len` bytes at `ptr`; the view of its first half is `v`, of memory that is of
no file. -/
structure WinCirc (w : WinWorld) (i : Nat) (x : WinHandle) (ptr len : Nat) (v : WinView) : Prop where
  held : w.held i = some x
  isRing : RingOf x ptr len
  view : v ∈ w.s.views
  base : v.base = ptr
  len : v.len = len
  file : v.sec.file = none

namespace WinCirc
variable {tab : SysTable} {t : Target} {s0 : Vmap.Win} {w w' : WinWorld} {i ptr len : Nat} {x : WinHandle} {v : WinView}

theorem owns (h : WinCirc w i x ptr len v) : WinHandle.Owns s0.gran x v := by
  have hv : RingView ptr len v := ⟨.inl h.base, h.len⟩
  rcases h.isRing with ⟨r, rfl, rfl, rfl⟩ | ⟨r, rfl, rfl, rfl⟩ <;> exact hv

theorem len_pos (h : WinCirc w i x ptr len v) (inv : WinInv t s0 w) : 0 < len := by
  have := (inv.laid.inside v h.view).1
  rw [h.len] at this
  exact this

theorem lt (h : WinCirc w i x ptr len v) (inv : WinInv t s0 w) : i < w.next := by
  apply Decidable.byContradiction
  intro hc
  have := h.held
  rw [inv.next i (by omega)] at this
  cases this

theorem look (h : WinCirc w i x ptr len v) (inv : WinInv t s0 w) : w.s.look ptr = some v :=
  inv.laid.look h.view (by have := h.len_pos inv; have := h.base; have := h.len; omega)

/-- In every memory of the process the ring is circular, with the section's object. -/
theorem mirror (wf : WinWf t s0) (laid : WinLaid t s0) (reach : WinReach tab t s0 w) (h : WinCirc w i x ptr len v)
    {k : Kernel} {obj : Nat → Obj} (mem : WinMem w.s k obj) :
    k.Mirror t ptr len (obj v.sec.id) ∧ Owned k ptr len (obj v.sec.id) := by
  have inv := reach.inv wf laid
  obtain ⟨o, m, ow⟩ := C107_ring wf laid reach (i := i) (ptr := ptr) (len := len) (by
    rcases h.isRing with ⟨r, rfl, h1, h2⟩ | ⟨r, rfl, h1, h2⟩
    · exact .inl ⟨r, h.held, h1, h2⟩
    · exact .inr ⟨r, h.held, h1, h2⟩) mem
  have hl := h.len_pos inv
  obtain ⟨e, e1, -, -, -, -, e2, -⟩ := m.shows' 0 (by omega)
  obtain ⟨e', f1, f2, -⟩ := mem.view v h.view ptr (by have := h.base; omega) (by have := h.base; have := h.len; omega)
  rw [Nat.add_zero, f1] at e1
  cases e1
  rw [← e2, f2] at m ow
  exact ⟨m, ow⟩

/-- A step that is not a use of the ring. -/
theorem other (inv : WinInv t s0 w) (h : WinCirc w i x ptr len v) {op : WinOp} (sane : op.Sane t w)
    (st : w.step tab t op = .ok w') (nodrop : op ≠ .drop i)
    (noring : ∀ r, x = .ring r → ∀ rpos wpos mem, op ≠ .ringUse i rpos wpos mem)
    (noinf : ∀ r, x = .inf r → ∀ rlen wpos mem, op ≠ .infUse i rlen wpos mem) :
    WinCirc w' i x ptr len v ∧ w'.s.bytes.mem v.sec.id = w.s.bytes.mem v.sec.id := by
  have held := win_held_other (h.lt inv) h.held st nodrop noring noinf
  refine ⟨⟨held, h.isRing, ?_, h.base, h.len, h.file⟩, ?_⟩
  · rcases (inv.step sane st).kept.held i (h.lt inv) with h1 | ⟨a, b, h1, h2, h3, h4⟩
    · rw [h1] at held; cases held
    · rw [h.held] at h1
      cases h1
      exact h4 v h.view h.owns
  · refine (win_other_step' inv h.held h.view h.owns sane st (fun m hm => ?_) noring noinf).1
    rcases h.isRing with ⟨r, rfl, -⟩ | ⟨r, rfl, -⟩ <;> cases hm

/-- The view is the only one that begins where the ring does. -/
theorem unique (inv : WinInv t s0 w) (h : WinCirc w i x ptr len v) {u : WinView} (hu : u ∈ w.s.views) (hb : u.base = ptr) :
    u = v := inv.laid.base_inj hu h.view (by rw [hb, h.base])

end WinCirc

/-- What a call leaves in its memory is the memory of the process afterwards. -/
theorem _root_.Vmap.Spec.WinShows.fill {s : Vmap.Win} {k k' : Kernel} {obj : Nat → Obj} {v : WinView} {ptr : Nat}
    (h : WinShows s k obj) (look : s.look ptr = some v) (sd : SameButData k k')
    (d : ∀ o, o ≠ obj v.sec.id → k'.data o = k.data o) :
    WinShows (WinWorld.fill s ptr (k'.data (obj v.sec.id))) k' obj := by
  have hv : (WinWorld.fill s ptr (k'.data (obj v.sec.id))).views = s.views := by
    simp only [WinWorld.fill, look]
  have hp : (WinWorld.fill s ptr (k'.data (obj v.sec.id))).page = s.page := by
    simp only [WinWorld.fill, look]
  refine ⟨⟨by rw [sd.page, hp]; exact h.mem.page, h.mem.inj, ?_, ?_⟩, ?_⟩
  · intro u hu a a1 a2
    rw [hv] at hu
    obtain ⟨e, e1, e2, e3, e4, e5⟩ := h.mem.view u hu a a1 a2
    refine ⟨e, by rw [sd.pt, sd.page]; exact e1, e2, by rw [sd.page]; exact e3, ?_, e5⟩
    rw [← e4]
    unfold Kernel.backed
    rw [sd.page, sd.size]
  · intro q e j he ho
    rw [sd.pt] at he
    obtain ⟨u, h1, h2, h3, h4⟩ := h.mem.only q e j he ho
    exact ⟨u, by rw [hv]; exact h1, h2, by rw [sd.page]; exact h3, by rw [sd.page]; exact h4⟩
  · intro u hu hf n
    rw [hv] at hu
    simp only [WinWorld.fill, look]
    by_cases hid : u.sec.id = v.sec.id
    · rw [if_pos hid, hid]
    · rw [if_neg hid, d _ (fun e => hid (h.mem.inj _ _ e))]
      exact h.bytes u hu hf n

/-- A section's contents from position `a` on, once around. -/
def secWin (m : Nat → Byte) (len a : Nat) : List Byte := (List.range len).map (fun i => m ((a + i) % len))

theorem _root_.Vmap.Spec.WinShows.win {s : Vmap.Win} {k : Kernel} {obj : Nat → Obj} (h : WinShows s k obj) {v : WinView} (hv : v ∈ s.views)
    (hf : v.sec.file = none) (len a : Nat) : win k (obj v.sec.id) len a = secWin (s.bytes.mem v.sec.id) len a := by
  simp only [Vmap.win, secWin, h.bytes v hv hf]

/-- Every process whose views are laid out properly has a memory with its contents. -/
theorem WinLaid.shows {t : Target} {s : Vmap.Win} (h : WinLaid t s) : ∃ k obj, Wf t k ∧ WinShows s k obj := by
  obtain ⟨w, m⟩ := WinLaid.memory h
  refine ⟨{ winMemory s with data := s.bytes.mem }, fun i => i, ⟨w.page, w.addr, w.objs, w.fds, w.names, w.excl, w.shared⟩,
    ⟨m.page, m.inj, m.view, m.only⟩, fun _ _ _ _ => rfl⟩

/-- What is known of a ring when it is made. -/
theorem win_made_circ {t : Target} {w : WinWorld} {s' : Vmap.Win} {ptr len : Nat} {x : WinHandle} (hx : RingOf x ptr len)
    (ring : WinRing t w.s s' ptr len) (rest : WinRest w.s s') (wf' : WinWf t s') (hl : 0 < len) :
    ∃ v, WinCirc (w.put s' x) w.next x ptr len v ∧ ∀ n, s'.bytes.mem v.sec.id n = 0 := by
  obtain ⟨v1, v2, hv, -, -, b1, b2, l1, l2, o1, o2, hs, hf⟩ := ring.access
  have m1 : v1 ∈ s'.views := by rw [hv]; exact List.mem_cons_of_mem _ List.mem_cons_self
  refine ⟨v1, ⟨by simp [WinWorld.put], hx, m1, b1, l1, hf⟩, ?_⟩
  obtain ⟨id, hid, hsh⟩ := ring.ring
  have h1 : v1.sec.id = id := by
    have h := (hsh 0 (by omega)).2
    unfold winShows at h
    rw [hv, List.find?_cons_of_neg (by simp; omega), List.find?_cons_of_pos (by simp; omega)] at h
    simp only [Option.map_some, Option.some.injEq, Prod.mk.injEq] at h
    exact h.1
  exact (rest.bytes.new _ (by rw [h1]; exact hid) (wf'.views v1 m1).2).1

/-- The ring (handle `i`) holds what it should: `s`. -/
def WinHolds (t : Target) (w : WinWorld) (i cap : Nat) (s : Spec.Win) : Prop :=
  ∃ r v, WinCirc w i (.ring r) r.ptr cap v ∧ r.len = cap ∧
    s.spare ++ s.q = secWin (w.s.bytes.mem v.sec.id) r.len r.wpos ∧ r.wpos = s.total ∧
    r.rpos + s.q.length = r.wpos ∧ PosOk t r.len r.wpos

/-- The infinite ring (handle `i`) holds what it should: `s`. -/
def WinHoldsInf (t : Target) (w : WinWorld) (i cap : Nat) (s : Spec.Lossy) : Prop :=
  ∃ r v, WinCirc w i (.inf r) r.ptr cap v ∧ r.len = cap ∧
    s.old ++ s.q = secWin (w.s.bytes.mem v.sec.id) r.len r.wpos ∧ r.wpos = s.total ∧
    r.rlen = s.q.length ∧ r.rlen ≤ r.wpos ∧ PosOk t r.len r.wpos

theorem secWin_zero {m : Nat → Byte} (h : ∀ n, m n = 0) (len a : Nat) : secWin m len a = List.replicate len 0 := by
  unfold secWin
  rw [List.map_congr_left (g := fun _ => (0 : Byte)) (fun i _ => h _)]
  rw [List.map_const', List.length_range]

section
variable {tab : SysTable} {t : Target} {s0 : Vmap.Win}

theorem WinHolds.rep (wf : WinWf t s0) (laid : WinLaid t s0) {w : WinWorld} (reach : WinReach tab t s0 w) {i : Nat}
    {r : Ring} {v : WinView} {s : Spec.Win} (c : WinCirc w i (.ring r) r.ptr r.len v)
    (all : s.spare ++ s.q = secWin (w.s.bytes.mem v.sec.id) r.len r.wpos) (total : r.wpos = s.total)
    (qlen : r.rpos + s.q.length = r.wpos) (pos : PosOk t r.len r.wpos) {k : Kernel} {obj : Nat → Obj}
    (sh : WinShows w.s k obj) : RingRep t k r (obj v.sec.id) s :=
  ⟨(c.mirror wf laid reach sh.mem).1, by rw [sh.win c.view c.file]; exact all, total, qlen, pos⟩

/-- One call: it answers as the queue does, and the ring then holds what the queue does. -/
theorem WinHolds.call (wf : WinWf t s0) (laid : WinLaid t s0) {w w' : WinWorld} (reach : WinReach tab t s0 w) {i cap : Nat}
    {s : Spec.Win} (h : WinHolds t w i cap s) {op : RingOp} {x : Resp} (below : (s.step op).1.total < posBound t cap)
    (call : WinRingCall tab t w i op x w') :
    WinReach tab t s0 w' ∧ WinHolds t w' i cap (s.step op).1 ∧ x = (s.step op).2 := by
  obtain ⟨r, v, c, rfl, all, total, qlen, pos⟩ := h
  obtain ⟨r1, v1, k, obj, k', r', g1, g2, g3, g4, g5, g6, g7⟩ := call
  have inv := reach.inv wf laid
  rw [c.held] at g1
  cases g1
  have := c.unique inv g2 g3
  subst this
  obtain ⟨k2, r2, e1, e2, e3, e4, sd, d⟩ := ring_step (WinHolds.rep wf laid reach c all total qlen pos g5) op below
  rw [g6] at e1
  simp only [Except.ok.injEq, Prod.mk.injEq] at e1
  obtain ⟨⟨rfl, rfl⟩, rfl⟩ := e1
  have reach' : WinReach tab t s0 w' := .step (op := .ringUse i _ _ _) reach trivial g7
  refine ⟨reach', ?_, rfl⟩
  have sh := g5.fill (c.look inv) sd d
  simp only [WinWorld.step, c.held, pure, Except.pure] at g7
  injection g7 with g7
  have hr : ({ r with rpos := r'.rpos, wpos := r'.wpos } : Ring) = r' := by
    cases r; cases r'; simp only at e3 e4; subst e3 e4; rfl
  rw [hr] at g7
  have hs : w'.s = WinWorld.fill w.s r.ptr (k'.data (obj v1.sec.id)) := by rw [← g7]; rfl
  have hv : w'.s.views = w.s.views := by rw [hs]; simp only [WinWorld.fill, c.look inv]
  rw [← hs] at sh
  refine ⟨r', v1, ⟨?_, .inl ⟨r', rfl, rfl, e4⟩, by rw [hv]; exact c.view, by rw [e3]; exact c.base, c.len, c.file⟩, e4, ?_,
    e2.total, e2.qlen, e2.pos⟩
  · rw [← g7]; simp [WinWorld.upd]
  · rw [e2.all, sh.win (by rw [hv]; exact c.view) c.file]

/-- A call can be made, in every memory of the process. -/
theorem WinHolds.run (wf : WinWf t s0) (laid : WinLaid t s0) {w : WinWorld} (reach : WinReach tab t s0 w) {i cap : Nat}
    {s : Spec.Win} {r : Ring} (hr : w.held i = some (.ring r)) (h : WinHolds t w i cap s) {op : RingOp}
    (below : (s.step op).1.total < posBound t cap) {k : Kernel} {obj : Nat → Obj} (kw : Wf t k)
    (sh : WinShows w.s k obj) :
    ∃ k' r' w', r.exec t k op = .ok ((k', r'), (s.step op).2) ∧
      WinRingCall tab t w i op (s.step op).2 w' ∧ w'.held i = some (.ring r') ∧ Wf t k' ∧ WinShows w'.s k' obj := by
  obtain ⟨r1, v, c, rfl, all, total, qlen, pos⟩ := h
  rw [c.held] at hr
  cases hr
  have inv := reach.inv wf laid
  obtain ⟨k', r', e1, e2, e3, e4, sd, d⟩ := ring_step (WinHolds.rep wf laid reach c all total qlen pos sh) op below
  have hr : ({ r with rpos := r'.rpos, wpos := r'.wpos } : Ring) = r' := by
    cases r; cases r'; simp only at e3 e4; subst e3 e4; rfl
  have st : w.step tab t (.ringUse i r'.rpos r'.wpos (k'.data (obj v.sec.id))) =
      .ok (w.upd (WinWorld.fill w.s r.ptr (k'.data (obj v.sec.id))) i (some (.ring r'))) := by
    simp only [WinWorld.step, c.held, pure, Except.pure, hr]
  exact ⟨k', r', _, e1, ⟨r, v, k, obj, k', r', c.held, c.view, c.base, kw, sh, e1, st⟩, by simp [WinWorld.upd], kw.sameButData sd,
    sh.fill (c.look inv) sd d⟩

/-- Whatever the program does meanwhile. -/
theorem WinQueue.holds (wf : WinWf t s0) (laid : WinLaid t s0) {w w' : WinWorld} (reach : WinReach tab t s0 w) {i cap : Nat}
    (start : WinHolds t w i cap ⟨List.replicate cap 0, [], 0⟩) {s : Spec.Win} (tr : WinQueue tab t i cap w w' s) :
    WinReach tab t s0 w' ∧ WinHolds t w' i cap s := by
  induction tr with
  | made => exact ⟨reach, start⟩
  | call _ below call ih =>
    obtain ⟨h1, h2, -⟩ := WinHolds.call wf laid ih.1 ih.2 below call
    exact ⟨h1, h2⟩
  | other _ sane st nouse nodrop ih =>
    obtain ⟨h1, r, v, c, rfl, h2⟩ := ih
    obtain ⟨c', hm⟩ := c.other (h1.inv wf laid) sane st nodrop (fun _ _ => nouse) (fun _ h => (nomatch h))
    exact ⟨.step h1 sane st, r, v, c', rfl, by rw [hm]; exact h2⟩

theorem WinHoldsInf.rep (wf : WinWf t s0) (laid : WinLaid t s0) {w : WinWorld} (reach : WinReach tab t s0 w) {i : Nat}
    {r : InfiniteRing} {v : WinView} {s : Lossy} (c : WinCirc w i (.inf r) r.ptr r.len v)
    (all : s.old ++ s.q = secWin (w.s.bytes.mem v.sec.id) r.len r.wpos) (total : r.wpos = s.total)
    (qlen : r.rlen = s.q.length) (le : r.rlen ≤ r.wpos) (pos : PosOk t r.len r.wpos) {k : Kernel} {obj : Nat → Obj}
    (sh : WinShows w.s k obj) : InfRep t k r (obj v.sec.id) s :=
  ⟨(c.mirror wf laid reach sh.mem).1, by rw [sh.win c.view c.file]; exact all, total, qlen, le, pos⟩

theorem WinHoldsInf.call (wf : WinWf t s0) (laid : WinLaid t s0) {w w' : WinWorld} (reach : WinReach tab t s0 w) {i cap : Nat}
    {s : Lossy} (h : WinHoldsInf t w i cap s) {op : RingOp} {x : Resp} (below : (s.step op).1.total < posBound t cap)
    (feed : FeedOk cap op) (call : WinInfCall tab t w i op x w') :
    WinReach tab t s0 w' ∧ WinHoldsInf t w' i cap (s.step op).1 ∧ x = (s.step op).2 := by
  obtain ⟨r, v, c, rfl, all, total, qlen, le, pos⟩ := h
  obtain ⟨r1, v1, k, obj, k', r', g1, g2, g3, g4, g5, g6, g7⟩ := call
  have inv := reach.inv wf laid
  rw [c.held] at g1
  cases g1
  have := c.unique inv g2 g3
  subst this
  obtain ⟨k2, r2, e1, e2, e3, e4, sd, d⟩ := inf_step (WinHoldsInf.rep wf laid reach c all total qlen le pos g5) op below feed
  rw [g6] at e1
  simp only [Except.ok.injEq, Prod.mk.injEq] at e1
  obtain ⟨⟨rfl, rfl⟩, rfl⟩ := e1
  have reach' : WinReach tab t s0 w' := .step (op := .infUse i _ _ _) reach trivial g7
  refine ⟨reach', ?_, rfl⟩
  have sh := g5.fill (c.look inv) sd d
  simp only [WinWorld.step, c.held, pure, Except.pure] at g7
  injection g7 with g7
  have hr : ({ r with rlen := r'.rlen, wpos := r'.wpos } : InfiniteRing) = r' := by
    cases r; cases r'; simp only at e3 e4; subst e3 e4; rfl
  rw [hr] at g7
  have hs : w'.s = WinWorld.fill w.s r.ptr (k'.data (obj v1.sec.id)) := by rw [← g7]; rfl
  have hv : w'.s.views = w.s.views := by rw [hs]; simp only [WinWorld.fill, c.look inv]
  rw [← hs] at sh
  refine ⟨r', v1, ⟨?_, .inr ⟨r', rfl, rfl, e4⟩, by rw [hv]; exact c.view, by rw [e3]; exact c.base, c.len, c.file⟩, e4, ?_,
    e2.total, e2.qlen, e2.le, e2.pos⟩
  · rw [← g7]; simp [WinWorld.upd]
  · rw [e2.all, sh.win (by rw [hv]; exact c.view) c.file]

/-- A call can be made, in every memory of the process. -/
theorem WinHoldsInf.run (wf : WinWf t s0) (laid : WinLaid t s0) {w : WinWorld} (reach : WinReach tab t s0 w) {i cap : Nat}
    {s : Lossy} {r : InfiniteRing} (hr : w.held i = some (.inf r)) (h : WinHoldsInf t w i cap s) {op : RingOp}
    (below : (s.step op).1.total < posBound t cap) (feed : FeedOk cap op) {k : Kernel} {obj : Nat → Obj} (kw : Wf t k)
    (sh : WinShows w.s k obj) :
    ∃ k' r' w', r.exec t k op = .ok ((k', r'), (s.step op).2) ∧
      WinInfCall tab t w i op (s.step op).2 w' ∧ w'.held i = some (.inf r') ∧ Wf t k' ∧ WinShows w'.s k' obj := by
  obtain ⟨r1, v, c, rfl, all, total, qlen, le, pos⟩ := h
  rw [c.held] at hr
  cases hr
  have inv := reach.inv wf laid
  obtain ⟨k', r', e1, e2, e3, e4, sd, d⟩ := inf_step (WinHoldsInf.rep wf laid reach c all total qlen le pos sh) op below feed
  have hr : ({ r with rlen := r'.rlen, wpos := r'.wpos } : InfiniteRing) = r' := by
    cases r; cases r'; simp only at e3 e4; subst e3 e4; rfl
  have st : w.step tab t (.infUse i r'.rlen r'.wpos (k'.data (obj v.sec.id))) =
      .ok (w.upd (WinWorld.fill w.s r.ptr (k'.data (obj v.sec.id))) i (some (.inf r'))) := by
    simp only [WinWorld.step, c.held, pure, Except.pure, hr]
  exact ⟨k', r', _, e1, ⟨r, v, k, obj, k', r', c.held, c.view, c.base, kw, sh, e1, st⟩, by simp [WinWorld.upd], kw.sameButData sd,
    sh.fill (c.look inv) sd d⟩

theorem WinLossy.holds (wf : WinWf t s0) (laid : WinLaid t s0) {w w' : WinWorld} (reach : WinReach tab t s0 w) {i cap : Nat}
    (start : WinHoldsInf t w i cap ⟨List.replicate cap 0, [], 0⟩) {s : Lossy} (tr : WinLossy tab t i cap w w' s) :
    WinReach tab t s0 w' ∧ WinHoldsInf t w' i cap s := by
  induction tr with
  | made => exact ⟨reach, start⟩
  | call _ below _ feed call ih =>
    obtain ⟨h1, h2, -⟩ := WinHoldsInf.call wf laid ih.1 ih.2 below feed call
    exact ⟨h1, h2⟩
  | other _ sane st nouse nodrop ih =>
    obtain ⟨h1, r, v, c, rfl, h2⟩ := ih
    obtain ⟨c', hm⟩ := c.other (h1.inv wf laid) sane st nodrop (fun _ h => (nomatch h)) (fun _ _ => nouse)
    exact ⟨.step h1 sane st, r, v, c', rfl, by rw [hm]; exact h2⟩

end

end Vmap
