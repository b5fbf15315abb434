import Verif.Proofs.WinQueue
import Verif.Proofs.BufWorld
import Verif.Props.WinQueue
import Verif.Props.BufWriter
import Verif.Spec.WinBuffer
/-
Lemmas for C143, C144: buffered readers and writers in whole programs on Windows.
-/
namespace Vmap
open Spec Kernel

/-- Whatever positions a ring has, feeding and consuming leads there from a new ring over the same memory. -/
theorem RingRep.consumedTo {t : Target} {k : Kernel} {r : Ring} {o : Obj} (wf : Wf t k) (own : Owned k r.ptr r.len o)
    (mirror : k.Mirror t r.ptr r.len o) : ∀ m, m < posBound t r.len →
    ∃ q sp, View t k { r with rpos := m, wpos := m } m q sp ∧ q = [] := by
  intro m
  induction m with
  | zero =>
    intro _
    have h : RingAt t k { r with rpos := 0, wpos := 0 } 0 := .placed wf ⟨o, mirror, own⟩ rfl rfl
    obtain ⟨q, sp, v⟩ := h.view
    refine ⟨q, sp, v, ?_⟩
    obtain ⟨o, rep⟩ := v.rep
    have := rep.qlen
    simp only at this
    exact List.length_eq_zero_iff.mp (by omega)
  | succ m ih =>
    intro hm
    obtain ⟨q, sp, v, hq⟩ := ih (by omega)
    subst hq
    have hl := v.len
    have hp := v.len_pos
    simp only [List.length_nil] at hl hp
    have h1 : min 1 sp.length = 1 := by omega
    obtain ⟨r1, e1, v1, l1, p1⟩ := v.feed 1 (by rw [h1]; exact hm)
    rw [h1] at v1
    obtain ⟨r2, e2, v2, l2, p2⟩ := v1.consume 1
    obtain ⟨o2, rep⟩ := v2.rep
    have hw := rep.total
    have hr := rep.qlen
    simp only [List.nil_append, List.length_drop, List.length_take] at hw hr
    have hq0 : ([] ++ sp.take 1).drop 1 = [] := by simp
    rw [hq0] at v2
    have : r2 = { r with rpos := m + 1, wpos := m + 1 } := by
      cases r2
      simp only at l1 p1 l2 p2 hw hr ⊢
      congr 1 <;> omega
    rw [this] at v2
    exact ⟨[], _, v2, rfl⟩

theorem posOk_lt {t : Target} {len x : Nat} (h : PosOk t len x) : x < posBound t len := by
  unfold posBound
  split
  · exact h.1
  · rename_i hn
    exact h.2.resolve_left hn

/-- A ring that represents a queue can have come about from a new one by calls on it. -/
theorem RingRep.ringAt {t : Target} {k : Kernel} {r : Ring} {o : Obj} {s : Spec.Win} (h : RingRep t k r o s)
    (wf : Wf t k) (own : Owned k r.ptr r.len o) : RingAt t k r s.total := by
  have hb := posOk_lt h.pos
  have hl := h.len_eq
  have hq := h.qlen
  obtain ⟨q, sp, v, e⟩ := RingRep.consumedTo wf own h.mirror r.rpos (by omega)
  subst e
  have hvl := v.len
  simp only [List.length_nil] at hvl
  have hm : min s.q.length sp.length = s.q.length := by omega
  obtain ⟨r1, e1, v1, l1, p1⟩ := v.feed s.q.length (by rw [hm]; simp only; omega)
  rw [hm] at v1
  obtain ⟨o1, rep⟩ := v1.rep
  have hw := rep.total
  have hr := rep.qlen
  simp only [List.nil_append, List.length_take] at hw hr
  have : r1 = r := by
    cases r; cases r1
    simp only at l1 p1 hw hr hq ⊢
    congr 1 <;> omega
  subst this
  have := v1.at_
  rw [← h.total, ← hq]
  exact this

theorem RingRep.view {t : Target} {k : Kernel} {r : Ring} {o : Obj} {s : Spec.Win} (h : RingRep t k r o s)
    (wf : Wf t k) (own : Owned k r.ptr r.len o) : View t k r s.total s.q s.spare := ⟨h.ringAt wf own, o, h⟩

/-- Calls on a ring change nothing but its own memory. -/
theorem execAll_rep {t : Target} {o : Obj} : ∀ {ops : List RingOp} {k k' : Kernel} {r r' : Ring} {s : Spec.Win}
    {xs : List Resp}, RingRep t k r o s → s.total + ops.countP grows * r.len < posBound t r.len →
    r.execAll t k ops = .ok ((k', r'), xs) →
    (∃ s', RingRep t k' r' o s') ∧ r'.ptr = r.ptr ∧ r'.len = r.len ∧ SameButData k k' ∧
      ∀ o', o' ≠ o → k'.data o' = k.data o' := by
  intro ops
  induction ops with
  | nil =>
    intro k k' r r' s xs h _ e
    injection e with e; injection e with e _; injection e with e1 e2
    subst e1 e2
    exact ⟨⟨s, h⟩, rfl, rfl, SameButData.refl _, fun _ _ => rfl⟩
  | cons op ops ih =>
    intro k k' r r' s xs h hb e
    simp only [Ring.execAll] at e
    obtain ⟨⟨⟨k1, r1⟩, x⟩, e1, e⟩ := bind_ok e
    obtain ⟨⟨⟨k2, r2⟩, ys⟩, e2, e⟩ := bind_ok e
    injection e with e; injection e with e _; injection e with e3 e4
    subst e3 e4
    have hl := h.len_eq
    have ht : (s.step op).1.total ≤ s.total + (if grows op then r.len else 0) := by
      cases op <;> simp [Win.step, grows] <;> omega
    rw [List.countP_cons, Nat.add_mul] at hb
    have hg : (if grows op then r.len else 0) = (if grows op = true then 1 else 0) * r.len := by
      split <;> simp
    obtain ⟨k1', r1', f1, f2, f3, f4, f5, f6⟩ := ring_step h op (by omega)
    rw [e1] at f1
    simp only [Except.ok.injEq, Prod.mk.injEq] at f1
    obtain ⟨⟨rfl, rfl⟩, -⟩ := f1
    obtain ⟨g1, g2, g3, g4, g5⟩ := ih f2 (by rw [f4]; omega) e2
    exact ⟨g1, by rw [g2, f3], by rw [g3, f4], f5.trans g4, fun o' ho => by rw [g5 o' ho, f6 o' ho]⟩

theorem Uses.rep {t : Target} {k k' : Kernel} {r r' : Ring} {o : Obj} {s : Spec.Win} {c : Nat} (h : RingRep t k r o s)
    (below : s.total + c * r.len < posBound t r.len) (u : Uses t k r c k' r') {n' : Nat} {q' sp' : List Byte}
    (v : View t k' r' n' q' sp') :
    RingRep t k' r' o ⟨sp', q', n'⟩ ∧ r'.ptr = r.ptr ∧ r'.len = r.len ∧ SameButData k k' ∧
      ∀ o', o' ≠ o → k'.data o' = k.data o' := by
  obtain ⟨ops, xs, e, hc⟩ := u
  have := Nat.mul_le_mul_right r.len hc
  obtain ⟨⟨s', h1⟩, h2⟩ := execAll_rep h (by omega) e
  refine ⟨?_, h2⟩
  have e1 := h1.fillBuf_eq
  have e2 := h1.writeSlice_all
  rw [v.fillBuf] at e1
  rw [v.writeSlice] at e2
  injection e1 with e1
  injection e2 with e2
  obtain ⟨o2, rep⟩ := v.rep
  have e3 := rep.total
  rw [h1.total] at e3
  cases s'
  simp only at e1 e2 e3
  subst e1 e2 e3
  exact h1

section
variable {tab : SysTable} {t : Target} {s0 : Vmap.Win}

/-- What is known when a ring is used in a memory of the process. -/
theorem WinHolds.view (wf : WinWf t s0) (laid : WinLaid t s0) {w : WinWorld} (reach : WinReach tab t s0 w) {i cap : Nat}
    {r : Ring} {s : Spec.Win} (h : WinHolds t w i cap s) (held : w.held i = some (.ring r)) {k : Kernel} {obj : Nat → Obj}
    (kw : Wf t k) (sh : WinShows w.s k obj) : View t k r s.total s.q s.spare ∧ r.len = cap := by
  obtain ⟨r1, v, c, e, all, total, qlen, pos⟩ := h
  rw [c.held] at held
  cases held
  rw [← e] at c
  have rep := WinHolds.rep wf laid reach c all total qlen pos sh
  exact ⟨rep.view kw (c.mirror wf laid reach sh.mem).2, e⟩

/-- Some calls on the ring, in one memory of the process: what they leave is what the ring holds then. -/
theorem WinHolds.used (wf : WinWf t s0) (laid : WinLaid t s0) {w : WinWorld} (reach : WinReach tab t s0 w) {i cap : Nat}
    {r r' : Ring} {s : Spec.Win} (h : WinHolds t w i cap s) (held : w.held i = some (.ring r)) {k k' : Kernel}
    {obj : Nat → Obj} (kw : Wf t k) (sh : WinShows w.s k obj) {c : Nat} (below : s.total + c * cap < posBound t cap)
    (u : Uses t k r c k' r') {n' : Nat} {q' sp' : List Byte} (view : View t k' r' n' q' sp') :
    ∃ w', (∃ v, v ∈ w.s.views ∧ v.base = r.ptr) ∧ (∀ v, v ∈ w.s.views → v.base = r.ptr →
      w.step tab t (.ringUse i r'.rpos r'.wpos (k'.data (obj v.sec.id))) = .ok w') ∧
      WinReach tab t s0 w' ∧ w'.held i = some (.ring r') ∧ WinHolds t w' i cap ⟨sp', q', n'⟩ ∧ Wf t k' ∧
      WinShows w'.s k' obj := by
  obtain ⟨r1, v, c, rfl, all, total, qlen, pos⟩ := h
  rw [c.held] at held
  cases held
  have inv := reach.inv wf laid
  obtain ⟨e2, e3, e4, sd, d⟩ := Uses.rep (WinHolds.rep wf laid reach c all total qlen pos sh) below u view
  have hr : ({ r with rpos := r'.rpos, wpos := r'.wpos } : Ring) = r' := by
    cases r; cases r'; simp only at e3 e4; subst e3 e4; rfl
  have st : w.step tab t (.ringUse i r'.rpos r'.wpos (k'.data (obj v.sec.id))) =
      .ok (w.upd (WinWorld.fill w.s r.ptr (k'.data (obj v.sec.id))) i (some (.ring r'))) := by
    simp only [WinWorld.step, c.held, pure, Except.pure, hr]
  have sh' := sh.fill (c.look inv) sd d
  have hv : (WinWorld.fill w.s r.ptr (k'.data (obj v.sec.id))).views = w.s.views := by
    simp only [WinWorld.fill, c.look inv]
  refine ⟨_, ⟨v, c.view, c.base⟩, fun u hu hb => by rw [c.unique inv hu hb]; exact st, .step (op := .ringUse i _ _ _) reach trivial st, by simp [WinWorld.upd], ?_,
    kw.sameButData sd, sh'⟩
  refine ⟨r', v, ⟨by simp [WinWorld.upd], .inl ⟨r', rfl, rfl, e4⟩, ?_, by rw [e3]; exact c.base, c.len, c.file⟩, e4, ?_,
    e2.total, e2.qlen, e2.pos⟩
  · show v ∈ (WinWorld.fill w.s r.ptr (k'.data (obj v.sec.id))).views
    rw [hv]; exact c.view
  · rw [e2.all]
    exact sh'.win (by rw [hv]; exact c.view) c.file _ _

/-- What another step leaves. -/
theorem WinHolds.other (wf : WinWf t s0) (laid : WinLaid t s0) {w w' : WinWorld} (reach : WinReach tab t s0 w) {i cap : Nat}
    {r : Ring} {s : Spec.Win} (h : WinHolds t w i cap s) (held : w.held i = some (.ring r)) {op : WinOp} (sane : op.Sane t w)
    (st : w.step tab t op = .ok w') (nouse : ∀ r p m, op ≠ .ringUse i r p m) (nodrop : op ≠ .drop i) :
    WinReach tab t s0 w' ∧ WinHolds t w' i cap s ∧ w'.held i = some (.ring r) := by
  obtain ⟨r1, v, c, rfl, h2⟩ := h
  obtain ⟨c', hm⟩ := c.other (reach.inv wf laid) sane st nodrop (fun _ _ => nouse) (fun _ h => (nomatch h))
  rw [c.held] at held
  cases held
  exact ⟨.step reach sane st, ⟨_, v, c', rfl, by rw [hm]; exact h2⟩, c'.held⟩

/-! ### Buffered readers -/

variable {σ : Type}

theorem WinReads.inv (wf : WinWf t s0) (laid : WinLaid t s0) (R : Reader σ) {i cap : Nat} {w0 w : WinWorld}
    {b0 b : BufReader (σ × List ReadEvent)} {out : List Byte} {c : Nat} (reach : WinReach tab t s0 w0)
    (held : w0.held i = some (.ring b0.buf)) (start : WinHolds t w0 i cap ⟨List.replicate cap 0, [], 0⟩)
    (log : b0.inner.2 = []) (tr : WinReads R.spy tab t i w0 b0 w b out c) (below : c * cap < posBound t cap) :
    WinReach tab t s0 w ∧ w.held i = some (.ring b.buf) ∧ ∃ q sp n, WinHolds t w i cap ⟨sp, q, n⟩ ∧ n ≤ c * cap ∧
      out ++ q = taken b.inner.2 := by
  induction tr with
  | made => exact ⟨reach, held, [], _, 0, start, by simp, by simp [log, taken]⟩
  | @call w w' b b' out o c op x before call ih =>
    rw [Nat.add_mul, Nat.one_mul] at below
    obtain ⟨h1, h2, q, sp, n, h3, h4, h5⟩ := ih (by omega)
    obtain ⟨v, k, obj, k', g1, g2, g3, g4, g5, g6, g7⟩ := call
    obtain ⟨vw, hl⟩ := h3.view wf laid h1 h2 g4 g5
    simp only at vw
    obtain ⟨k2, b2, x2, o2, n2, q2, sp2, e, vw2, hn, hl2, new, e1, e2⟩ := rd_step R vw (by rw [hl]; omega) op
    rw [g6] at e
    simp only [Except.ok.injEq, Prod.mk.injEq] at e
    obtain ⟨⟨rfl, rfl⟩, rfl, rfl⟩ := e
    obtain ⟨w2, -, st, f1, f2, f3, -, -⟩ := h3.used wf laid h1 h2 g4 g5 (c := 1) (by simp only; omega)
      (rd_exec_uses g6) vw2
    have := st v g2 g3
    rw [g7] at this
    injection this with this
    subst this
    refine ⟨f1, f2, q2, sp2, n2, f3, by rw [Nat.add_mul]; omega, ?_⟩
    rw [List.append_assoc, e2, ← List.append_assoc, h5, e1]
  | other before sane st nouse nodrop ih =>
    obtain ⟨h1, h2, q, sp, n, h3, h4⟩ := ih below
    obtain ⟨f1, f2, f3⟩ := h3.other wf laid h1 h2 sane st nouse nodrop
    exact ⟨f1, f3, q, sp, n, f2, h4⟩

/-- A call on a buffered reader can be made, in every memory of the process. -/
theorem WinHolds.rdCall (wf : WinWf t s0) (laid : WinLaid t s0) (R : Reader σ) {w : WinWorld} (reach : WinReach tab t s0 w)
    {i cap : Nat} {b : BufReader (σ × List ReadEvent)} {s : Spec.Win} (h : WinHolds t w i cap s)
    (held : w.held i = some (.ring b.buf)) (below : s.total + cap < posBound t cap) {k : Kernel} {obj : Nat → Obj}
    (kw : Wf t k) (sh : WinShows w.s k obj) (op : RdOp) :
    ∃ k' b' x o w', b.exec R.spy t k op = .ok ((k', b'), x, o) ∧ WinRdCall R.spy tab t w i b op x o b' w' ∧
      Wf t k' ∧ WinShows w'.s k' obj := by
  obtain ⟨vw, hl⟩ := h.view wf laid reach held kw sh
  obtain ⟨k2, b2, x2, o2, n2, q2, sp2, e, vw2, -⟩ := rd_step R vw (by rw [hl]; exact below) op
  obtain ⟨w2, ⟨v, hv, hb⟩, st, -, -, -, f4, f5⟩ := h.used wf laid reach held kw sh (c := 1) (by omega) (rd_exec_uses e) vw2
  exact ⟨k2, b2, x2, o2, w2, e, ⟨v, k, obj, k2, held, hv, hb, kw, sh, e, st v hv hb⟩, f4, f5⟩

/-! ### Buffered writers -/

theorem WinWrites.inv (wf : WinWf t s0) (laid : WinLaid t s0) (W : Writer σ) (fuel : Nat) {i cap : Nat} {w0 w : WinWorld}
    {b0 b : BufWriter (σ × List WriteEvent)} {acc : List Byte} {c : Nat} {fits : Prop} (reach : WinReach tab t s0 w0)
    (held : w0.held i = some (.ring b0.buf)) (start : WinHolds t w0 i cap ⟨List.replicate cap 0, [], 0⟩)
    (log : b0.inner.2 = []) (flag : b0.panicked = false) (tr : WinWrites W.spy fuel tab t i w0 b0 w b acc c fits)
    (below : c * cap < posBound t cap) :
    WinReach tab t s0 w ∧ w.held i = some (.ring b.buf) ∧
      (b.panicked = true ↔ lastWrite b.inner.2 = some .panic) ∧
      ∃ q sp n, WinHolds t w i cap ⟨sp, q, n⟩ ∧ n ≤ c * cap ∧
      (received b.inner.2 ++ q).Perm acc ∧ (¬ fits → received b.inner.2 ++ q = acc) := by
  induction tr with
  | made =>
    exact ⟨reach, held, by simp [flag, log, lastWrite], [], _, 0, start, by simp, by simp [log, received],
      by simp [log, received]⟩
  | @call w w' b b' acc c fits op x before call ih =>
    rw [Nat.add_mul, Nat.one_mul] at below
    obtain ⟨h1, h2, hp, q, sp, n, h3, h4, h5, h6⟩ := ih (by omega)
    obtain ⟨v, k, obj, k', g1, g2, g3, g4, g5, g6, g7⟩ := call
    obtain ⟨vw, hl⟩ := h3.view wf laid h1 h2 g4 g5
    simp only at vw
    obtain ⟨k2, b2, x2, ev, n2, q2, sp2, e, vw2, hn, hl2, lg, pm, od, pk⟩ := wr_step W vw (by rw [hl]; omega) fuel op
    rw [g6] at e
    simp only [Except.ok.injEq, Prod.mk.injEq] at e
    obtain ⟨⟨rfl, rfl⟩, rfl⟩ := e
    obtain ⟨w2, -, st, f1, f2, f3, -, -⟩ := h3.used wf laid h1 h2 g4 g5 (c := 1) (by simp only; omega)
      (wr_exec_uses g6) vw2
    have := st v g2 g3
    rw [g7] at this
    injection this with this
    subst this
    refine ⟨f1, f2, pk hp, q2, sp2, n2, f3, by rw [Nat.add_mul]; omega, ?_, ?_⟩
    · rw [lg, received_append, List.append_assoc]
      refine (List.Perm.append_left _ pm).trans ?_
      rw [← List.append_assoc]
      exact List.Perm.append_right _ h5
    · intro hf
      have hf1 : ¬ fits := fun h => hf (.inl h)
      rw [lg, received_append, List.append_assoc, od, ← List.append_assoc, h6 hf1]
      intro data hd hlen
      apply Decidable.byContradiction
      intro hq
      refine hf (.inr ⟨data, hd, by rw [vw.writeLen, hlen], ?_⟩)
      rw [vw.readLen]
      intro h0
      injection h0 with h0
      exact hq (List.length_eq_zero_iff.mp h0)
  | other before sane st nouse nodrop ih =>
    obtain ⟨h1, h2, hp, q, sp, n, h3, h4⟩ := ih below
    obtain ⟨f1, f2, f3⟩ := h3.other wf laid h1 h2 sane st nouse nodrop
    exact ⟨f1, f3, hp, q, sp, n, f2, h4⟩

/-- A call on a buffered writer can be made, in every memory of the process. -/
theorem WinHolds.wrCall (wf : WinWf t s0) (laid : WinLaid t s0) (W : Writer σ) (fuel : Nat) {w : WinWorld}
    (reach : WinReach tab t s0 w) {i cap : Nat} {b : BufWriter (σ × List WriteEvent)} {s : Spec.Win}
    (h : WinHolds t w i cap s) (held : w.held i = some (.ring b.buf)) (below : s.total + cap < posBound t cap) {k : Kernel}
    {obj : Nat → Obj} (kw : Wf t k) (sh : WinShows w.s k obj) (op : WrOp) :
    ∃ k' b' x w', b.exec W.spy t fuel k op = .ok ((k', b'), x) ∧ WinWrCall W.spy fuel tab t w i b op x b' w' ∧
      Wf t k' ∧ WinShows w'.s k' obj := by
  obtain ⟨vw, hl⟩ := h.view wf laid reach held kw sh
  obtain ⟨k2, b2, x2, ev, n2, q2, sp2, e, vw2, -⟩ := wr_step W vw (by rw [hl]; exact below) fuel op
  obtain ⟨w2, ⟨v, hv, hb⟩, st, -, -, -, f4, f5⟩ := h.used wf laid reach held kw sh (c := 1) (by omega) (wr_exec_uses e) vw2
  exact ⟨k2, b2, x2, w2, e, ⟨v, k, obj, k2, held, hv, hb, kw, sh, e, st v hv hb⟩, f4, f5⟩

/-- The last flush of a dropped buffered writer. -/
theorem lastFlush_view (W : Writer σ) {t : Target} {k : Kernel} {b : BufWriter (σ × List WriteEvent)} {n : Nat}
    {q sp : List Byte} (v : View t k b.buf n q sp) (fuel : Nat) :
    ∃ inner x ev, b.lastFlush W.spy t fuel k = .ok (inner, x) ∧ inner.2 = b.inner.2 ++ ev ∧
      (b.panicked = true → ev = [] ∧ x = .ok ()) ∧
      (b.panicked = false → ∃ q' y, Flush fuel q ev q' y ∧
        match y with
        | .ok _ => x = .ok ()
        | .err _ => x = .ok ()
        | .unwound => x = .unwound
        | .pending => x = .pending) := by
  cases hp : b.panicked with
  | true =>
    refine ⟨b.inner, .ok (), [], ?_, by simp, fun _ => ⟨rfl, rfl⟩, fun h => by cases h⟩
    simp only [BufWriter.lastFlush, hp, if_true, pure, Except.pure]
  | false =>
    obtain ⟨b1, y, ev, q1, sp1, e1, v1, l1, p1, lg1, fl, pk⟩ := flush_view W fuel v
    simp only [BufWriter.lastFlush, hp, Bool.false_eq_true, if_false, e1, bind, Except.bind, pure, Except.pure]
    cases y with
    | ok u => exact ⟨_, _, ev, rfl, lg1, fun h => (nomatch h), fun _ => ⟨q1, _, fl, rfl⟩⟩
    | err u => exact ⟨_, _, ev, rfl, lg1, fun h => (nomatch h), fun _ => ⟨q1, _, fl, rfl⟩⟩
    | unwound => exact ⟨_, _, ev, rfl, lg1, fun h => (nomatch h), fun _ => ⟨q1, _, fl, rfl⟩⟩
    | pending => exact ⟨_, _, ev, rfl, lg1, fun h => (nomatch h), fun _ => ⟨q1, _, fl, rfl⟩⟩

end

end Vmap
