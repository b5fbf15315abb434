import Verif.Proofs.BufWorld
import Verif.Proofs.WinBuffer
import Verif.Spec.UnixQueue
/- Helper lemmas for C151–C153. -/
namespace Vmap
open Kernel Spec

section
variable {tab : SysTable} {t : Target} {k0 : Kernel}

/-- The program holds, as handle `i`, a ring of `cap` bytes that is in state `s`. -/
def HoldsRing (t : Target) (w : World) (i cap : Nat) (s : Spec.Win) : Prop :=
  ∃ r o, w.held i = some (.ring r s.total) ∧ r.len = cap ∧ RingRep t w.k r o s

/-- The same for an infinite ring. -/
def HoldsInf (t : Target) (w : World) (i cap : Nat) (s : Lossy) : Prop :=
  ∃ r o, w.held i = some (.inf r s.total) ∧ r.len = cap ∧ InfRep t w.k r o s

/-- The pages behind a circular mapping show one object only. -/
theorem mirror_unique {k : Kernel} {ptr len : Nat} {o o' : Obj} (w : Wf t k) (h : k.Mirror t ptr len o)
    (h' : k.Mirror t ptr len o') : o = o' := by
  have h0 := h.len_pos
  have hin := page_inside (a := ptr + 0) (len := len) h.ptr_dvd w.page_pos (by omega) (by omega)
  obtain ⟨e, a1, a2, -⟩ := h.entry w hin.1 hin.2
  obtain ⟨e', b1, b2, -⟩ := h'.entry w hin.1 hin.2
  rw [a1] at b1; injection b1 with b1; subst b1
  rw [← a2, ← b2]

theorem HoldsRing.other (wf : Wf t k0) {w w' : World} (h : Reach tab t k0 w) {i cap : Nat} {s : Spec.Win}
    (g : HoldsRing t w i cap s) {op : Op} (sane : op.Sane t w) (st : w.step tab t op = .ok w')
    (hj : op.target ≠ some i) : Reach tab t k0 w' ∧ HoldsRing t w' i cap s ∧ w'.held i = w.held i := by
  obtain ⟨r, o, hi, hl, rep⟩ := g
  have v := h.inv wf
  have st' := step_ok tab v sane st
  obtain ⟨S, fx, hS⟩ := st'.fx
  obtain ⟨hi', hS⟩ := hS i _ hi hj
  obtain ⟨l1, l2⟩ := v.live i _ hi
  obtain ⟨o', s', a1, -, a3, -⟩ := l1.inv
  obtain rfl := mirror_unique v.wf rep.mirror a1.mirror
  obtain ⟨ap, -⟩ := fx.apart v.wf st'.inv.wf rep.mirror a3 l2 (by
    intro q a b
    exact hS q ((onPage_ring v.wf.page_pos rep.mirror.ptr_dvd q).mpr ⟨a, b⟩))
  obtain ⟨m', d⟩ := rep.mirror.apart v.wf ap
  exact ⟨.step h sane st, ⟨r, o, hi', hl, m', by rw [win_congr d]; exact rep.all, rep.total, rep.qlen, rep.pos⟩,
    by rw [hi', hi]⟩

theorem HoldsInf.other (wf : Wf t k0) {w w' : World} (h : Reach tab t k0 w) {i cap : Nat} {s : Lossy}
    (g : HoldsInf t w i cap s) {op : Op} (sane : op.Sane t w) (st : w.step tab t op = .ok w')
    (hj : op.target ≠ some i) : Reach tab t k0 w' ∧ HoldsInf t w' i cap s := by
  obtain ⟨r, o, hi, hl, rep⟩ := g
  have v := h.inv wf
  have st' := step_ok tab v sane st
  obtain ⟨S, fx, hS⟩ := st'.fx
  obtain ⟨hi', hS⟩ := hS i _ hi hj
  obtain ⟨l1, l2⟩ := v.live i _ hi
  obtain ⟨o', s', a1, -, a3, -⟩ := l1.inv
  obtain rfl := mirror_unique v.wf rep.mirror a1.mirror
  obtain ⟨ap, -⟩ := fx.apart v.wf st'.inv.wf rep.mirror a3 l2 (by
    intro q a b
    exact hS q ((onPage_ring v.wf.page_pos rep.mirror.ptr_dvd q).mpr ⟨a, b⟩))
  obtain ⟨m', d⟩ := rep.mirror.apart v.wf ap
  exact ⟨.step h sane st, r, o, hi', hl, m', by rw [win_congr d]; exact rep.all, rep.total, rep.qlen, rep.le, rep.pos⟩

/-- A call on the ring, made as a step of the program. -/
theorem HoldsRing.call {w : World} (h : Reach tab t k0 w) {i cap : Nat} {s : Spec.Win}
    (g : HoldsRing t w i cap s) {op : RingOp} (below : (s.step op).1.total < posBound t cap) {r : Ring} {n : Nat}
    (held : w.held i = some (.ring r n)) :
    ∃ k' r' w', r.exec t w.k op = .ok ((k', r'), (s.step op).2) ∧ w.step tab t (.ringOp i op) = .ok w' ∧
      w'.k = k' ∧ w'.held i = some (.ring r' (s.step op).1.total) ∧ Reach tab t k0 w' ∧
      HoldsRing t w' i cap (s.step op).1 := by
  obtain ⟨r1, o, hi, hl, rep⟩ := g
  rw [held] at hi; injection hi with hi; injection hi with hi hn; subst hi; subst hn
  subst hl
  have hw := rep.writeLen_eq
  have ht : (s.step op).1.total = passed op s.total s.spare.length := by
    cases op <;> simp [Win.step, passed]
  obtain ⟨k', r', e, rep', p1, p2, sd, d⟩ := ring_step rep op below
  have st : w.step tab t (.ringOp i op) = .ok (w.upd k' i (some (.ring r' (s.step op).1.total))) := by
    simp only [World.step, held, hw, e, bind, Except.bind, pure, Except.pure, ht]
  have hh : (w.upd k' i (some (.ring r' (s.step op).1.total))).held i = some (.ring r' (s.step op).1.total) := by
    simp [World.upd]
  refine ⟨k', r', _, e, st, rfl, hh, .step (op := .ringOp i op) h ?_ st, r', o, hh, p2, rep'⟩
  intro r2 n2 l h2 hl2
  rw [held] at h2; injection h2 with h2; injection h2 with h2 h3; subst h2; subst h3
  rw [hw] at hl2; injection hl2 with hl2; subst hl2
  rw [← ht]; exact below

theorem HoldsInf.call {w : World} (h : Reach tab t k0 w) {i cap : Nat} {s : Lossy}
    (g : HoldsInf t w i cap s) {op : RingOp} (below : (s.step op).1.total < posBound t cap) (noClear : op ≠ .clear)
    (feed : FeedOk cap op) {r : InfiniteRing} {n : Nat} (held : w.held i = some (.inf r n)) :
    ∃ k' r' w', r.exec t w.k op = .ok ((k', r'), (s.step op).2) ∧ w.step tab t (.infOp i op) = .ok w' ∧
      w'.k = k' ∧ w'.held i = some (.inf r' (s.step op).1.total) ∧ Reach tab t k0 w' ∧
      HoldsInf t w' i cap (s.step op).1 := by
  obtain ⟨r1, o, hi, hl, rep⟩ := g
  rw [held] at hi; injection hi with hi; injection hi with hi hn; subst hi; subst hn
  subst hl
  have hw : r.writeLen t = .ok r.len := rfl
  have ht : (s.step op).1.total = passed op s.total r.len := by
    cases op <;> simp [Lossy.step, passed, ← rep.all_len, Lossy.append]
    exact absurd rfl noClear
  obtain ⟨k', r', e, rep', p1, p2, sd, d⟩ := inf_step rep op below feed
  have st : w.step tab t (.infOp i op) = .ok (w.upd k' i (some (.inf r' (s.step op).1.total))) := by
    simp only [World.step, held, hw, e, bind, Except.bind, pure, Except.pure, ht]
  have hh : (w.upd k' i (some (.inf r' (s.step op).1.total))).held i = some (.inf r' (s.step op).1.total) := by
    simp [World.upd]
  refine ⟨k', r', _, e, st, rfl, hh, .step (op := .infOp i op) h ?_ st, r', o, hh, p2, rep'⟩
  intro r2 n2 l h2 hl2
  rw [held] at h2; injection h2 with h2; injection h2 with h2 h3; subst h2; subst h3
  rw [hw] at hl2; injection hl2 with hl2; subst hl2
  exact ⟨noClear, by rw [← ht]; exact below, feed⟩

theorem HoldsInf.writeAll {w : World} (h : Reach tab t k0 w) {i cap : Nat} {s : Lossy}
    (g : HoldsInf t w i cap s) {bs : List Byte} (below : s.total + min bs.length cap < posBound t cap)
    {r : InfiniteRing} {n : Nat} (held : w.held i = some (.inf r n)) :
    ∃ k' r' w', r.writeAll t w.k bs = .ok (k', r') ∧ w.step tab t (.infAll i bs) = .ok w' ∧
      w'.k = k' ∧ w'.held i = some (.inf r' (s.total + min bs.length cap)) ∧ Reach tab t k0 w' ∧
      HoldsInf t w' i cap (s.append (lastN cap bs)) := by
  obtain ⟨r1, o, hi, hl, rep⟩ := g
  rw [held] at hi; injection hi with hi; injection hi with hi hn; subst hi; subst hn
  subst hl
  obtain ⟨k', r', e, rep', p1, p2, sd, d⟩ := inf_writeAll rep bs (by rw [rep.total]; exact below)
  have st : w.step tab t (.infAll i bs) = .ok (w.upd k' i (some (.inf r' (s.total + min bs.length r.len)))) := by
    simp only [World.step, held, e, bind, Except.bind, pure, Except.pure, p2]
  have hh : (w.upd k' i (some (.inf r' (s.total + min bs.length r.len)))).held i =
      some (.inf r' (s.total + min bs.length r.len)) := by
    simp [World.upd]
  refine ⟨k', r', _, e, st, rfl, hh, .step (op := .infAll i bs) h ?_ st, r', o, ?_, p2, rep'⟩
  · intro r2 n2 h2
    rw [held] at h2; injection h2 with h2; injection h2 with h2 h3; subst h2; subst h3
    exact below
  · rw [hh]
    have : (s.append (lastN r.len bs)).total = s.total + min bs.length r.len := by
      simp [Lossy.append, lastN]; omega
    rw [this]

theorem Queued.holds (wf : Wf t k0) {i cap : Nat} {w0 w : World} {s : Spec.Win} (reach : Reach tab t k0 w0)
    (start : HoldsRing t w0 i cap ⟨List.replicate cap 0, [], 0⟩) (tr : Queued tab t i cap w0 w s) :
    Reach tab t k0 w ∧ HoldsRing t w i cap s := by
  induction tr with
  | made => exact ⟨reach, start⟩
  | call before below call ih =>
    obtain ⟨h1, h2⟩ := ih
    obtain ⟨r, o, hi, -⟩ := id h2
    obtain ⟨k', r', w', -, st, -, -, f1, f2⟩ := h2.call h1 below hi
    rw [call] at st; injection st with st; subst st
    exact ⟨f1, f2⟩
  | other before sane st else_ ih =>
    obtain ⟨h1, h2⟩ := ih
    obtain ⟨f1, f2, -⟩ := h2.other wf h1 sane st else_
    exact ⟨f1, f2⟩

theorem Retained.holds (wf : Wf t k0) {i cap : Nat} {w0 w : World} {s : Lossy} (reach : Reach tab t k0 w0)
    (start : HoldsInf t w0 i cap ⟨List.replicate cap 0, [], 0⟩) (tr : Retained tab t i cap w0 w s) :
    Reach tab t k0 w ∧ HoldsInf t w i cap s := by
  induction tr with
  | made => exact ⟨reach, start⟩
  | call before below noClear feed call ih =>
    obtain ⟨h1, h2⟩ := ih
    obtain ⟨r, o, hi, -⟩ := id h2
    obtain ⟨k', r', w', -, st, -, -, f1, f2⟩ := h2.call h1 below noClear feed hi
    rw [call] at st; injection st with st; subst st
    exact ⟨f1, f2⟩
  | all before below call ih =>
    obtain ⟨h1, h2⟩ := ih
    obtain ⟨r, o, hi, -⟩ := id h2
    obtain ⟨k', r', w', -, st, -, -, f1, f2⟩ := h2.writeAll h1 below hi
    rw [call] at st; injection st with st; subst st
    exact ⟨f1, f2⟩
  | other before sane st else_ ih =>
    obtain ⟨h1, h2⟩ := ih
    exact h2.other wf h1 sane st else_

/-! ### New rings -/

theorem made_ring (wf : Wf t k0) {w : World} (reach : Reach tab t k0 w) {hint : Nat} (fits : RingFits t w.k hint)
    {k1 : Kernel} {r : Ring} (made : Ring.make t w.k hint = .ok (k1, .ok r)) :
    Reach tab t k0 (w.put k1 (.ring r 0)) ∧
      HoldsRing t (w.put k1 (.ring r 0)) w.next r.len ⟨List.replicate r.len 0, [], 0⟩ := by
  have v := reach.inv wf
  refine ⟨.step (op := .newRing hint) reach fits
    (by simp only [World.step, made, bind, Except.bind, pure, Except.pure]), ?_⟩
  obtain ⟨k', res, e, -, h2⟩ := Ring.make_good v.wf fits
  rw [e] at made
  injection made with made; injection made with hk hr; subst hk; subst hr
  obtain ⟨m, h1, h2⟩ := h2 r rfl
  obtain ⟨o, a1, a2, a3⟩ := m.owned v.wf
  refine ⟨r, o, by simp [World.put], rfl, a1, ?_, h2, by simp [h1, h2], ?_⟩
  · simp [World.put, win_zero a3]
  · rw [h2]
    have := a1.fits
    have := a1.len_pos
    exact ⟨by simp [lim64], .inr (by omega)⟩

theorem made_inf (wf : Wf t k0) {w : World} (reach : Reach tab t k0 w) {hint : Nat} (fits : RingFits t w.k hint)
    {k1 : Kernel} {r : InfiniteRing} (made : InfiniteRing.make t w.k hint = .ok (k1, .ok r)) :
    Reach tab t k0 (w.put k1 (.inf r 0)) ∧
      HoldsInf t (w.put k1 (.inf r 0)) w.next r.len ⟨List.replicate r.len 0, [], 0⟩ := by
  have v := reach.inv wf
  refine ⟨.step (op := .newInf hint) reach fits
    (by simp only [World.step, made, bind, Except.bind, pure, Except.pure]), ?_⟩
  obtain ⟨k', res, e, -, h2⟩ := InfiniteRing.make_good v.wf fits
  rw [e] at made
  injection made with made; injection made with hk hr; subst hk; subst hr
  obtain ⟨m, h1, h2⟩ := h2 r rfl
  obtain ⟨o, a1, a2, a3⟩ := m.owned v.wf
  refine ⟨r, o, by simp [World.put], rfl, a1, ?_, h2, by simp [h1], by omega, ?_⟩
  · simp [World.put, win_zero a3]
  · rw [h2]
    have := a1.fits
    have := a1.len_pos
    exact ⟨by simp [lim64], .inr (by omega)⟩

/-! ### Buffered readers and writers -/

theorem HoldsRing.view (wf : Wf t k0) {w : World} (reach : Reach tab t k0 w) {i cap : Nat} {s : Spec.Win}
    (g : HoldsRing t w i cap s) {r : Ring} {n : Nat} (held : w.held i = some (.ring r n)) :
    View t w.k r s.total s.q s.spare ∧ r.len = cap ∧ n = s.total := by
  obtain ⟨r1, o, hi, hl, rep⟩ := g
  rw [held] at hi; injection hi with hi; injection hi with hi hn; subst hi; subst hn
  exact ⟨⟨((reach.inv wf).live i _ held).1, o, rep⟩, hl, rfl⟩

/-- Some calls on the ring, seen as one. -/
theorem HoldsRing.used (wf : Wf t k0) {w : World} (reach : Reach tab t k0 w) {i cap : Nat} {s : Spec.Win}
    (g : HoldsRing t w i cap s) {r r' : Ring} {n c n' : Nat} {k' : Kernel} {q sp : List Byte}
    (held : w.held i = some (.ring r n)) (below : s.total + c * cap < posBound t cap) (u : Uses t w.k r c k' r')
    (v : View t k' r' n' q sp) (hl : r'.len = r.len) :
    Reach tab t k0 (w.upd k' i (some (.ring r' r'.wpos))) ∧
      HoldsRing t (w.upd k' i (some (.ring r' r'.wpos))) i cap ⟨sp, q, n'⟩ ∧ OnlyHandle w k' i := by
  obtain ⟨-, hl0, hn⟩ := g.view wf reach held
  obtain ⟨n2, h1, -, -, on⟩ := u.world wf reach held (by rw [hl0, hn]; exact below)
  have hh : ∀ x, (w.upd k' i (some (.ring r' x))).held i = some (.ring r' x) := by intro x; simp [World.upd]
  have at_ : RingAt t k' r' n2 := ((h1.inv wf).live i _ (hh n2)).1
  obtain ⟨o1, s1, rep1, ht1, -⟩ := at_.inv
  have e2 : r'.wpos = n2 := rep1.total.trans ht1
  obtain ⟨o, rep⟩ := v.rep
  have e3 : r'.wpos = n' := rep.total
  refine ⟨by rw [e2]; exact h1, ⟨r', o, ?_, by rw [hl, hl0], rep⟩, on⟩
  rw [hh, e3]

variable {σ : Type}

theorem Reads.inv (wf : Wf t k0) (R : Reader σ) {i cap : Nat} {w0 w : World}
    {b0 b : BufReader (σ × List ReadEvent)} {out : List Byte} {c n0 : Nat} (reach : Reach tab t k0 w0)
    (held : w0.held i = some (.ring b0.buf n0)) (start : HoldsRing t w0 i cap ⟨List.replicate cap 0, [], 0⟩)
    (log : b0.inner.2 = []) (tr : Reads R.spy tab t i w0 b0 w b out c) (below : c * cap < posBound t cap) :
    Reach tab t k0 w ∧ ∃ q sp n, w.held i = some (.ring b.buf n) ∧ HoldsRing t w i cap ⟨sp, q, n⟩ ∧ n ≤ c * cap ∧
      out ++ q = taken b.inner.2 := by
  induction tr with
  | made =>
    obtain ⟨-, -, hn⟩ := start.view wf reach held
    exact ⟨reach, [], _, 0, by rw [held, hn], start, by simp, by simp [log, taken]⟩
  | @call w w' b b' out o c op x before call ih =>
    rw [Nat.add_mul, Nat.one_mul] at below
    obtain ⟨h1, q, sp, n, h2, h3, h4, h5⟩ := ih (by omega)
    obtain ⟨n1, k', g1, g2, g3⟩ := call
    obtain ⟨vw, hl, -⟩ := h3.view wf h1 h2
    simp only at vw
    obtain ⟨k2, b2, x2, o2, n2, q2, sp2, e, vw2, hn, hl2, new, e1, e2⟩ := rd_step R vw (by rw [hl]; omega) op
    rw [g2] at e
    simp only [Except.ok.injEq, Prod.mk.injEq] at e
    obtain ⟨⟨rfl, rfl⟩, rfl, rfl⟩ := e
    obtain ⟨f1, f2, -⟩ := h3.used wf h1 h2 (c := 1) (by simp only; omega) (rd_exec_uses g2) vw2 hl2
    subst g3
    refine ⟨f1, q2, sp2, n2, ?_, f2, by rw [Nat.add_mul]; omega, ?_⟩
    · obtain ⟨o, rep⟩ := vw2.rep
      have : b'.buf.wpos = n2 := rep.total
      simp [World.upd, this]
    · rw [List.append_assoc, e2, ← List.append_assoc, h5, e1]
  | other before sane st else_ ih =>
    obtain ⟨h1, q, sp, n, h2, h3, h4⟩ := ih below
    obtain ⟨f1, f2, f3⟩ := h3.other wf h1 sane st else_
    exact ⟨f1, q, sp, n, by rw [f3, h2], f2, h4⟩

theorem HoldsRing.rdCall (wf : Wf t k0) (R : Reader σ) {w : World} (reach : Reach tab t k0 w) {i cap n : Nat}
    {b : BufReader (σ × List ReadEvent)} {s : Spec.Win} (h : HoldsRing t w i cap s)
    (held : w.held i = some (.ring b.buf n)) (below : s.total + cap < posBound t cap) (op : RdOp) :
    ∃ b' x o w', RdCall R.spy t w i b op x o b' w' ∧ OnlyHandle w w'.k i := by
  obtain ⟨vw, hl, -⟩ := h.view wf reach held
  obtain ⟨k2, b2, x2, o2, n2, q2, sp2, e, vw2, hn, hl2, -⟩ := rd_step R vw (by rw [hl]; exact below) op
  obtain ⟨-, -, on⟩ := h.used wf reach held (c := 1) (by omega) (rd_exec_uses e) vw2 hl2
  exact ⟨b2, x2, o2, _, ⟨n, k2, held, e, rfl⟩, on⟩

theorem Writes.inv (wf : Wf t k0) (W : Writer σ) (fuel : Nat) {i cap : Nat} {w0 w : World}
    {b0 b : BufWriter (σ × List WriteEvent)} {acc : List Byte} {c n0 : Nat} {fits : Prop} (reach : Reach tab t k0 w0)
    (held : w0.held i = some (.ring b0.buf n0)) (start : HoldsRing t w0 i cap ⟨List.replicate cap 0, [], 0⟩)
    (log : b0.inner.2 = []) (flag : b0.panicked = false) (tr : Writes W.spy fuel tab t i w0 b0 w b acc c fits)
    (below : c * cap < posBound t cap) :
    Reach tab t k0 w ∧ (b.panicked = true ↔ lastWrite b.inner.2 = some .panic) ∧
      ∃ q sp n, w.held i = some (.ring b.buf n) ∧ HoldsRing t w i cap ⟨sp, q, n⟩ ∧ n ≤ c * cap ∧
      (received b.inner.2 ++ q).Perm acc ∧ (¬ fits → received b.inner.2 ++ q = acc) := by
  induction tr with
  | made =>
    obtain ⟨-, -, hn⟩ := start.view wf reach held
    exact ⟨reach, by simp [flag, log, lastWrite], [], _, 0, by rw [held, hn], start, by simp, by simp [log, received],
      by simp [log, received]⟩
  | @call w w' b b' acc c fits op x before call ih =>
    rw [Nat.add_mul, Nat.one_mul] at below
    obtain ⟨h1, hp, q, sp, n, h2, h3, h4, h5, h6⟩ := ih (by omega)
    obtain ⟨n1, k', g1, g2, g3⟩ := call
    obtain ⟨vw, hl, -⟩ := h3.view wf h1 h2
    simp only at vw
    obtain ⟨k2, b2, x2, ev, n2, q2, sp2, e, vw2, hn, hl2, lg, pm, od, pk⟩ := wr_step W vw (by rw [hl]; omega) fuel op
    rw [g2] at e
    simp only [Except.ok.injEq, Prod.mk.injEq] at e
    obtain ⟨⟨rfl, rfl⟩, rfl⟩ := e
    obtain ⟨f1, f2, -⟩ := h3.used wf h1 h2 (c := 1) (by simp only; omega) (wr_exec_uses g2) vw2 hl2
    subst g3
    refine ⟨f1, pk hp, q2, sp2, n2, ?_, f2, by rw [Nat.add_mul]; omega, ?_, ?_⟩
    · obtain ⟨o, rep⟩ := vw2.rep
      have : b'.buf.wpos = n2 := rep.total
      simp [World.upd, this]
    · rw [lg, received_append, List.append_assoc]
      refine (List.Perm.append_left _ pm).trans ?_
      rw [← List.append_assoc]
      exact List.Perm.append_right _ h5
    · intro hf
      have hf1 : ¬ fits := fun h => hf (.inl h)
      rw [lg, received_append, List.append_assoc, od, ← List.append_assoc, h6 hf1]
      intro data hd hlen
      apply Decidable.byContradiction
      intro hq
      refine hf (.inr ⟨data, hd, by rw [vw.writeLen, hlen], ?_⟩)
      rw [vw.readLen]
      intro h0
      injection h0 with h0
      exact hq (List.length_eq_zero_iff.mp h0)
  | other before sane st else_ ih =>
    obtain ⟨h1, hp, q, sp, n, h2, h3, h4⟩ := ih below
    obtain ⟨f1, f2, f3⟩ := h3.other wf h1 sane st else_
    exact ⟨f1, hp, q, sp, n, by rw [f3, h2], f2, h4⟩

theorem HoldsRing.wrCall (wf : Wf t k0) (W : Writer σ) (fuel : Nat) {w : World} (reach : Reach tab t k0 w)
    {i cap n : Nat} {b : BufWriter (σ × List WriteEvent)} {s : Spec.Win} (h : HoldsRing t w i cap s)
    (held : w.held i = some (.ring b.buf n)) (below : s.total + cap < posBound t cap) (op : WrOp) :
    ∃ b' x w', WrCall W.spy fuel t w i b op x b' w' ∧ OnlyHandle w w'.k i := by
  obtain ⟨vw, hl, -⟩ := h.view wf reach held
  obtain ⟨k2, b2, x2, ev, n2, q2, sp2, e, vw2, hn, hl2, -⟩ := wr_step W vw (by rw [hl]; exact below) fuel op
  obtain ⟨-, -, on⟩ := h.used wf reach held (c := 1) (by omega) (wr_exec_uses e) vw2 hl2
  exact ⟨b2, x2, _, ⟨n, k2, held, e, rfl⟩, on⟩

end
end Vmap
