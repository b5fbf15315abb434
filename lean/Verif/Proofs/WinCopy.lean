import Verif.Spec.WinCopy
import Verif.Proofs.WinBuffer
import Verif.Proofs.RingCopy
/-
Lemmas for C179: `std::io::copy` between rings in whole programs on Windows.
-/
namespace Vmap
open Spec Kernel

section
variable {tab : SysTable} {t : Target} {s0 : Vmap.Win}

theorem Spec.WinOnlyCalls.mono {S S' : Nat → Prop} {w w' : WinWorld} (h : WinOnlyCalls tab t S w w')
    (sub : ∀ l, S l → S' l) : WinOnlyCalls tab t S' w w' := by
  induction h with
  | refl => exact .refl
  | ring _ on call ih => exact .ring ih (sub _ on) call
  | inf _ on call ih => exact .inf ih (sub _ on) call

theorem Spec.WinOnlyCalls.trans {S : Nat → Prop} {w w1 w2 : WinWorld} (h1 : WinOnlyCalls tab t S w w1)
    (h2 : WinOnlyCalls tab t S w1 w2) : WinOnlyCalls tab t S w w2 := by
  induction h2 with
  | refl => exact h1
  | ring _ on call ih => exact .ring ih on call
  | inf _ on call ih => exact .inf ih on call

/-- A source: the ring `i`, from which reads take bytes off the front. -/
structure WinSource {ρ : Type} (tab : SysTable) (t : Target) (rd : Kernel → ρ → Nat → Exec (ρ × List Byte)) (i : Nat)
    (H : WinWorld → ρ → List Byte → Prop) : Prop where
  read : ∀ {w : WinWorld} {a : ρ} {q : List Byte} {k : Kernel} {obj : Nat → Obj}, H w a q → Wf t k → WinShows w.s k obj →
    ∀ n, ∃ a' w', rd k a n = .ok (a', q.take n) ∧ WinOnlyCalls tab t (· = i) w w' ∧ H w' a' (q.drop n) ∧
      WinShows w'.s k obj
  keep : ∀ {w w' : WinWorld} {a : ρ} {q : List Byte} {j : Nat}, j ≠ i → H w a q → WinOnlyCalls tab t (· = j) w w' →
    H w' a q

theorem PosOk.below {t : Target} {len n : Nat} (h : PosOk t len n) : n < posBound t len := by
  unfold posBound
  split
  · exact h.1
  · rename_i hn
    exact h.2.resolve_left hn

/-- The trace of a ring while functions of other rings are called. -/
theorem Spec.WinQueue.keep (wf : WinWf t s0) (laid : WinLaid t s0) {wa : WinWorld} (reach : WinReach tab t s0 wa) {i cap : Nat}
    (start : WinHolds t wa i cap ⟨List.replicate cap 0, [], 0⟩) {w w' : WinWorld} {s : Spec.Win} {r : Ring} {j : Nat}
    (hij : j ≠ i) (tr : WinQueue tab t i cap wa w s) (held : w.held i = some (.ring r))
    (c : WinOnlyCalls tab t (· = j) w w') : WinQueue tab t i cap wa w' s ∧ w'.held i = some (.ring r) := by
  induction c with
  | refl => exact ⟨tr, held⟩
  | ring _ on call ih =>
    rw [on] at call
    clear on
    obtain ⟨r1, v, k, obj, k', r', -, -, -, -, -, -, st⟩ := call
    obtain ⟨g1, g2⟩ := WinQueue.holds wf laid reach start ih.1
    have nu : ∀ a b c, WinOp.ringUse j r'.rpos r'.wpos (k'.data (obj v.sec.id)) ≠ .ringUse i a b c := by
      intro a b c h; injection h with h; exact hij h
    have nd : WinOp.ringUse j r'.rpos r'.wpos (k'.data (obj v.sec.id)) ≠ .drop i := fun h => by cases h
    exact ⟨.other (op := .ringUse j _ _ _) ih.1 trivial st nu nd,
      (g2.other (op := .ringUse j _ _ _) wf laid g1 ih.2 trivial st nu nd).2.2⟩
  | inf _ on call ih =>
    rw [on] at call
    clear on
    obtain ⟨r1, v, k, obj, k', r', -, -, -, -, -, -, st⟩ := call
    obtain ⟨g1, g2⟩ := WinQueue.holds wf laid reach start ih.1
    have nu : ∀ a b c, WinOp.infUse j r'.rlen r'.wpos (k'.data (obj v.sec.id)) ≠ .ringUse i a b c := by
      intro a b c h; cases h
    have nd : WinOp.infUse j r'.rlen r'.wpos (k'.data (obj v.sec.id)) ≠ .drop i := fun h => by cases h
    exact ⟨.other (op := .infUse j _ _ _) ih.1 trivial st nu nd,
      (g2.other (op := .infUse j _ _ _) wf laid g1 ih.2 trivial st nu nd).2.2⟩

theorem WinHoldsInf.other (wf : WinWf t s0) (laid : WinLaid t s0) {w w' : WinWorld} (reach : WinReach tab t s0 w) {i cap : Nat}
    {r : InfiniteRing} {s : Lossy} (h : WinHoldsInf t w i cap s) (held : w.held i = some (.inf r)) {op : WinOp}
    (sane : op.Sane t w) (st : w.step tab t op = .ok w') (nouse : ∀ r p m, op ≠ .infUse i r p m) (nodrop : op ≠ .drop i) :
    w'.held i = some (.inf r) := by
  obtain ⟨r1, v, c, rfl, h2⟩ := h
  obtain ⟨c', -⟩ := c.other (reach.inv wf laid) sane st nodrop (fun _ h => (nomatch h)) (fun _ _ => nouse)
  rw [c.held] at held
  cases held
  exact c'.held

theorem Spec.WinLossy.keep (wf : WinWf t s0) (laid : WinLaid t s0) {wa : WinWorld} (reach : WinReach tab t s0 wa) {i cap : Nat}
    (start : WinHoldsInf t wa i cap ⟨List.replicate cap 0, [], 0⟩) {w w' : WinWorld} {s : Lossy} {r : InfiniteRing} {j : Nat}
    (hij : j ≠ i) (tr : WinLossy tab t i cap wa w s) (held : w.held i = some (.inf r))
    (c : WinOnlyCalls tab t (· = j) w w') : WinLossy tab t i cap wa w' s ∧ w'.held i = some (.inf r) := by
  induction c with
  | refl => exact ⟨tr, held⟩
  | ring _ on call ih =>
    rw [on] at call
    clear on
    obtain ⟨r1, v, k, obj, k', r', -, -, -, -, -, -, st⟩ := call
    obtain ⟨g1, g2⟩ := WinLossy.holds wf laid reach start ih.1
    have nu : ∀ a b c, WinOp.ringUse j r'.rpos r'.wpos (k'.data (obj v.sec.id)) ≠ .infUse i a b c := by
      intro a b c h; cases h
    have nd : WinOp.ringUse j r'.rpos r'.wpos (k'.data (obj v.sec.id)) ≠ .drop i := fun h => by cases h
    exact ⟨.other (op := .ringUse j _ _ _) ih.1 trivial st nu nd,
      g2.other (op := .ringUse j _ _ _) wf laid g1 ih.2 trivial st nu nd⟩
  | inf _ on call ih =>
    rw [on] at call
    clear on
    obtain ⟨r1, v, k, obj, k', r', -, -, -, -, -, -, st⟩ := call
    obtain ⟨g1, g2⟩ := WinLossy.holds wf laid reach start ih.1
    have nu : ∀ a b c, WinOp.infUse j r'.rlen r'.wpos (k'.data (obj v.sec.id)) ≠ .infUse i a b c := by
      intro a b c h; injection h with h; exact hij h
    have nd : WinOp.infUse j r'.rlen r'.wpos (k'.data (obj v.sec.id)) ≠ .drop i := fun h => by cases h
    exact ⟨.other (op := .infUse j _ _ _) ih.1 trivial st nu nd,
      g2.other (op := .infUse j _ _ _) wf laid g1 ih.2 trivial st nu nd⟩

theorem win_ring_source (wf : WinWf t s0) (laid : WinLaid t s0) {wa : WinWorld} (reach : WinReach tab t s0 wa) {i cap : Nat}
    (start : WinHolds t wa i cap ⟨List.replicate cap 0, [], 0⟩) :
    WinSource tab t (fun k (a : Ring) n => a.read t k n) i
      (fun w a q => ∃ s, WinQueue tab t i cap wa w s ∧ w.held i = some (.ring a) ∧ s.q = q) := by
  refine ⟨?_, ?_⟩
  · rintro w a q k obj ⟨s, tr, held, rfl⟩ kw sh n
    obtain ⟨g1, g2⟩ := WinQueue.holds wf laid reach start tr
    have below : (s.step (.read n)).1.total < posBound t cap := by
      obtain ⟨r, v, c, hl, -, total, -, pos⟩ := id g2
      have := pos.below
      rw [total, hl] at this
      exact this
    obtain ⟨k', a', w', e, call, hh, -, sh'⟩ := g2.run (tab := tab) wf laid g1 held below kw sh
    have tr' := tr.call below call
    simp only [Ring.exec, bind, Except.bind] at e
    cases hr : a.read t k n with
    | error f => rw [hr] at e; cases e
    | ok x =>
      rw [hr] at e
      obtain ⟨a1, bs⟩ := x
      simp only [pure, Except.pure, Win.step, Except.ok.injEq, Prod.mk.injEq, Resp.bytes.injEq] at e
      obtain ⟨⟨e1, e2⟩, e3⟩ := e
      subst e1 e2 e3
      exact ⟨a1, w', rfl, .ring .refl rfl call, ⟨_, tr', hh, rfl⟩, sh'⟩
  · rintro w w' a q j hij ⟨s, tr, held, rfl⟩ c
    obtain ⟨h1, h2⟩ := tr.keep wf laid reach start hij held c
    exact ⟨s, h1, h2, rfl⟩

theorem win_inf_source (wf : WinWf t s0) (laid : WinLaid t s0) {wa : WinWorld} (reach : WinReach tab t s0 wa) {i cap : Nat}
    (start : WinHoldsInf t wa i cap ⟨List.replicate cap 0, [], 0⟩) :
    WinSource tab t (fun k (a : InfiniteRing) n => a.read t k n) i
      (fun w a q => ∃ s, WinLossy tab t i cap wa w s ∧ w.held i = some (.inf a) ∧ s.q = q) := by
  refine ⟨?_, ?_⟩
  · rintro w a q k obj ⟨s, tr, held, rfl⟩ kw sh n
    obtain ⟨g1, g2⟩ := WinLossy.holds wf laid reach start tr
    have below : (s.step (.read n)).1.total < posBound t cap := by
      obtain ⟨r, v, c, hl, -, total, -, -, pos⟩ := id g2
      have := pos.below
      rw [total, hl] at this
      exact this
    obtain ⟨k', a', w', e, call, hh, -, sh'⟩ := g2.run (tab := tab) (op := .read n) wf laid g1 held below trivial kw sh
    have tr' := tr.call below (by simp) trivial call
    simp only [InfiniteRing.exec, bind, Except.bind] at e
    cases hr : a.read t k n with
    | error f => rw [hr] at e; cases e
    | ok x =>
      rw [hr] at e
      obtain ⟨a1, bs⟩ := x
      simp only [pure, Except.pure, Lossy.step, Except.ok.injEq, Prod.mk.injEq, Resp.bytes.injEq] at e
      obtain ⟨⟨e1, e2⟩, e3⟩ := e
      subst e1 e2 e3
      exact ⟨a1, w', rfl, .inf .refl rfl call, ⟨_, tr', hh, rfl⟩, sh'⟩
  · rintro w w' a q j hij ⟨s, tr, held, rfl⟩ c
    obtain ⟨h1, h2⟩ := tr.keep wf laid reach start hij held c
    exact ⟨s, h1, h2, rfl⟩

/-- `write_all` to a ring. -/
theorem win_ring_sink (wf : WinWf t s0) (laid : WinLaid t s0) {wb : WinWorld} (reach : WinReach tab t s0 wb) {j cap : Nat}
    (start : WinHolds t wb j cap ⟨List.replicate cap 0, [], 0⟩) {w : WinWorld} {b : Ring} {s : Spec.Win} {k : Kernel}
    {obj : Nat → Obj} (tr : WinQueue tab t j cap wb w s) (held : w.held j = some (.ring b)) (kw : Wf t k)
    (sh : WinShows w.s k obj) (bs : List Byte) (need : s.total + min bs.length s.spare.length < posBound t cap) :
    ∃ b' k' w', b.writeAll t k bs = .ok ((k', b'), if bs.length ≤ s.spare.length then .ok ()
        else .error (.ofKind .writeZero)) ∧
      WinOnlyCalls tab t (· = j) w w' ∧ WinQueue tab t j cap wb w' (s.step (.write bs)).1 ∧
      w'.held j = some (.ring b') ∧ Wf t k' ∧ WinShows w'.s k' obj := by
  have one : ∀ {w : WinWorld} {b : Ring} {s : Spec.Win} {k : Kernel} (bs : List Byte), WinQueue tab t j cap wb w s →
      w.held j = some (.ring b) → Wf t k → WinShows w.s k obj →
      s.total + min bs.length s.spare.length < posBound t cap →
      ∃ b' k' w', b.write t k bs = .ok (k', b', min bs.length s.spare.length) ∧
        WinOnlyCalls tab t (· = j) w w' ∧ WinQueue tab t j cap wb w' (s.step (.write bs)).1 ∧
        w'.held j = some (.ring b') ∧ Wf t k' ∧ WinShows w'.s k' obj := by
    intro w b s k bs tr held kw sh need
    obtain ⟨g1, g2⟩ := WinQueue.holds wf laid reach start tr
    obtain ⟨k', b', w', e, call, hh, kw', sh'⟩ := g2.run (tab := tab) (op := .write bs) wf laid g1 held need kw sh
    have tr' := tr.call (op := .write bs) need call
    simp only [Ring.exec, bind, Except.bind] at e
    cases hr : b.write t k bs with
    | error f => rw [hr] at e; cases e
    | ok x =>
      rw [hr] at e
      obtain ⟨k1, b1, n⟩ := x
      simp only [pure, Except.pure, Win.step, Except.ok.injEq, Prod.mk.injEq, Resp.num.injEq] at e
      obtain ⟨⟨e1, e2⟩, e3⟩ := e
      subst e1 e2 e3
      exact ⟨b1, k1, w', rfl, .ring .refl rfl call, tr', hh, kw', sh'⟩
  by_cases hb : bs.length = 0
  · have hb' := List.eq_nil_of_length_eq_zero hb
    subst hb'
    refine ⟨b, k, w, ?_, .refl, ?_, held, kw, sh⟩
    · rw [Ring.writeAll, dif_pos hb, if_pos (by simp)]
    · have : (s.step (.write [])).1 = s := by simp [Win.step]
      rw [this]; exact tr
  · obtain ⟨b1, k1, w1, e1, c1, tr1, hh1, kw1, sh1⟩ := one bs tr held kw sh need
    rw [Ring.writeAll, dif_neg hb]
    simp only [e1]
    by_cases hz : min bs.length s.spare.length = 0
    · refine ⟨b1, k1, w1, ?_, c1, tr1, hh1, kw1, sh1⟩
      rw [dif_pos hz, if_neg (by omega)]
    · rw [dif_neg hz, if_neg (by omega)]
      by_cases hf : bs.length ≤ s.spare.length
      · refine ⟨b1, k1, w1, ?_, c1, tr1, hh1, kw1, sh1⟩
        rw [if_pos hf, Nat.min_eq_left hf, Ring.writeAll, dif_pos (by simp)]
      · have hm : min bs.length s.spare.length = s.spare.length := Nat.min_eq_right (by omega)
        have hsp : (s.step (.write bs)).1.spare = [] := by simp [Win.step, hm]
        have ht : (s.step (.write bs)).1.total = s.total + min bs.length s.spare.length := rfl
        obtain ⟨b2, k2, w2, e2, c2, tr2, hh2, kw2, sh2⟩ := one (bs.drop (min bs.length s.spare.length)) tr1 hh1 kw1 sh1
          (by rw [hsp, ht]; simp only [List.length_nil, Nat.min_zero, Nat.add_zero]; exact need)
        have hs2 : ((s.step (.write bs)).1.step (.write (bs.drop (min bs.length s.spare.length)))).1 =
            (s.step (.write bs)).1 := by simp [Win.step, hm]
        rw [hs2] at tr2
        refine ⟨b2, k2, w2, ?_, c1.trans c2, tr2, hh2, kw2, sh2⟩
        rw [Ring.writeAll, dif_neg (by simp; omega)]
        simp only [e2, hsp, List.length_nil, Nat.min_zero]
        rw [dif_pos trivial, if_neg hf]

theorem win_to_ring {ρ : Type} {rd : Kernel → ρ → Nat → Exec (ρ × List Byte)} {i j cap : Nat} (hij : i ≠ j)
    {H : WinWorld → ρ → List Byte → Prop} (wf : WinWf t s0) (laid : WinLaid t s0) {wb : WinWorld}
    (reach : WinReach tab t s0 wb) (start : WinHolds t wb j cap ⟨List.replicate cap 0, [], 0⟩)
    (src : WinSource tab t rd i H) {size : Nat} (pos : 0 < size) {obj : Nat → Obj} :
    ∀ (steps : Nat) {w : WinWorld} {k : Kernel} {a : ρ} {q : List Byte} {b : Ring} {s : Spec.Win} (len : Nat),
    H w a q → w.held j = some (.ring b) → WinQueue tab t j cap wb w s → Wf t k → WinShows w.s k obj →
    s.total + min q.length s.spare.length < posBound t cap → q.length < steps →
    ∃ k' a' b' w' s', copyRings rd (fun k (b : Ring) bs => b.writeAll t k bs) size steps k a b len =
        .ok (k', a', b', some (if q.length ≤ s.spare.length then .ok (len + q.length)
          else .error (.ofKind .writeZero))) ∧
      WinOnlyCalls tab t (fun l => l = i ∨ l = j) w w' ∧
      H w' a' (q.drop (leaves size s.spare.length q.length)) ∧ w'.held j = some (.ring b') ∧
      WinQueue tab t j cap wb w' s' ∧ s'.q = s.q ++ q.take s.spare.length ∧ Wf t k' ∧ WinShows w'.s k' obj := by
  intro steps
  induction steps with
  | zero => intro w k a q b s len _ _ _ _ _ _ hs; omega
  | succ steps ih =>
    intro w k a q b s len ha hh tr kw sh need hs
    have hlen : (q.take size).length = min size q.length := List.length_take
    obtain ⟨a', w1, e1, c1, h1, sh1⟩ := src.read ha kw sh size
    obtain ⟨tr1, hh1⟩ := tr.keep wf laid reach start hij hh c1
    have m1 : WinOnlyCalls tab t (fun l => l = i ∨ l = j) w w1 := c1.mono (fun l h => .inl h)
    by_cases hq : q = []
    · subst hq
      refine ⟨k, a', b, w1, s, ?_, m1, by simpa using h1, hh1, tr1, by simp, kw, sh1⟩
      simp [copyRings, e1, bind, Except.bind, pure, Except.pure]
    · obtain ⟨b', k', w', e2, c2, tr2, hh2, kw2, sh2⟩ := win_ring_sink wf laid reach start tr1 hh1 kw sh1 (q.take size)
        (by rw [hlen]; omega)
      have h2 := src.keep (Ne.symm hij) h1 c2
      have c := m1.trans (c2.mono (fun l h => Or.inr h) : WinOnlyCalls tab t (fun l => l = i ∨ l = j) w1 w')
      have hql : 0 < q.length := by
        have : q.length ≠ 0 := fun h => hq (List.eq_nil_of_length_eq_zero h)
        omega
      have hl : (q.take size).length ≠ 0 := by rw [hlen]; omega
      have hsz : ¬ size < (q.take size).length := by rw [hlen]; omega
      simp only [copyRings, e1, bind, Except.bind, if_neg hl, if_neg hsz, e2]
      by_cases hf : (q.take size).length ≤ s.spare.length
      · simp only [if_pos hf]
        have hm : min (q.take size).length s.spare.length = (q.take size).length := Nat.min_eq_left hf
        have hsp : (s.step (.write (q.take size))).1.spare = s.spare.drop (q.take size).length := by
          simp only [Win.step, hm]
        have htt : (s.step (.write (q.take size))).1.total = s.total + (q.take size).length := by
          simp only [Win.step, hm]
        have hsq : (s.step (.write (q.take size))).1.q = s.q ++ q.take size := by
          simp only [Win.step, hm, List.take_length]
        obtain ⟨lv, iff⟩ := leaves_more (size := size) (room := s.spare.length) (len := q.length) hlen hf pos
        have hdl : (q.drop size).length = q.length - (q.take size).length := by
          rw [List.length_drop, hlen]; omega
        have hsl : (s.spare.drop (q.take size).length).length = s.spare.length - (q.take size).length :=
          List.length_drop
        obtain ⟨k3, a3, b3, w3, s3, e3, c3, h3, hh3, tr3, q3, kw3, sh3⟩ := ih (len + (q.take size).length) h2 hh2 tr2 kw2 sh2
          (by rw [hsp, htt, hdl, hsl]; omega) (by rw [hdl]; omega)
        rw [hsp, hsl] at e3 h3 q3
        rw [hdl] at e3 h3
        refine ⟨k3, a3, b3, w3, s3, ?_, c.trans c3, ?_, hh3, tr3, ?_, kw3, sh3⟩
        · rw [e3]
          by_cases hr : q.length ≤ s.spare.length
          · rw [if_pos hr, if_pos (iff.mp hr)]
            congr 6; omega
          · rw [if_neg hr, if_neg (fun h => hr (iff.mpr h))]
        · rw [List.drop_drop] at h3
          rw [lv]
          by_cases hle : size ≤ q.length
          · rw [hlen, Nat.min_eq_left hle] at h3 ⊢; exact h3
          · have d1 : ∀ n, q.drop (size + n) = [] := fun n => List.drop_eq_nil_of_le (by omega)
            have d2 : ∀ n, q.drop ((q.take size).length + n) = [] :=
              fun n => List.drop_eq_nil_of_le (by rw [hlen]; omega)
            rw [d1] at h3
            rw [d2]; exact h3
        · rw [q3, hsq, List.append_assoc]
          congr 1
          by_cases hle : size ≤ q.length
          · rw [hlen, Nat.min_eq_left hle] at hf ⊢
            rw [← List.take_add, Nat.add_sub_cancel' hf]
          · rw [List.take_of_length_le (by omega : q.length ≤ size), List.drop_eq_nil_of_le (by omega),
              List.take_nil, List.append_nil, List.take_of_length_le]
            rw [hlen] at hf; omega
      · simp only [if_neg hf]
        have hm : min (q.take size).length s.spare.length = s.spare.length := Nat.min_eq_right (by omega)
        refine ⟨k', a', b', w', _, ?_, c, ?_, hh2, tr2, ?_, kw2, sh2⟩
        · rw [if_neg (by rw [hlen] at hf; omega)]; rfl
        · have : leaves size s.spare.length q.length = size := by
            unfold leaves
            rw [if_neg (by rw [hlen] at hf; omega), Nat.div_eq_of_lt (by rw [hlen] at hf; omega)]
            omega
          rw [this]; exact h2
        · simp only [Win.step, hm, List.take_take]
          congr 2
          rw [hlen] at hf; omega

/-- `write_all` of an infinite ring does what `write` of the bytes it keeps does. -/
theorem inf_writeAll_write {k : Kernel} {r : InfiniteRing} {o : Obj} {s : Lossy} (h : InfRep t k r o s) (bs : List Byte)
    {k' : Kernel} {r' : InfiniteRing} {x : Resp} (e : r.exec t k (.write (lastN r.len bs)) = .ok ((k', r'), x)) :
    r.writeAll t k bs = .ok (k', r') := by
  have ht : (lastN r.len bs).length = min bs.length r.len := by simp [lastN]; omega
  have hd : bs.drop (bs.length - min bs.length r.len) = lastN r.len bs := by
    simp only [lastN]; congr 1; omega
  have hm : min (min bs.length r.len) r.len = min bs.length r.len := by omega
  have hk : (lastN r.len bs).take (min bs.length r.len) = lastN r.len bs := by
    rw [← ht, List.take_length]
  simp only [InfiniteRing.exec, InfiniteRing.write, writeInto, h.asWriteSlice_eq, bind, Except.bind, Nat.min_comm r.len,
    ht, hm, Nat.lt_irrefl, if_false, hk, pure, Except.pure] at e
  simp only [InfiniteRing.writeAll, h.asWriteSlice_eq, bind, Except.bind, Nat.min_comm r.len]
  rw [subU_ok (by omega)]
  simp only [hd, ht, ne_eq, not_true_eq_false, if_false, pure, Except.pure]
  cases h1 : k.storeN (r.ptr + r.wpos % r.len) (lastN r.len bs) with
  | error f => rw [h1] at e; cases e
  | ok k1 =>
    rw [h1] at e
    simp only at e ⊢
    have hf : SeqWrite.feed t r (min bs.length r.len) = r.feed t (min bs.length r.len) := rfl
    rw [hf] at e
    cases h2 : r.feed t (min bs.length r.len) with
    | error f => rw [h2] at e; cases e
    | ok r1 =>
      rw [h2] at e
      simp only [Except.ok.injEq, Prod.mk.injEq] at e
      rw [e.1.1, e.1.2]

/-- `write_all` to an infinite ring. -/
theorem win_inf_sink (wf : WinWf t s0) (laid : WinLaid t s0) {wb : WinWorld} (reach : WinReach tab t s0 wb) {j cap : Nat}
    (start : WinHoldsInf t wb j cap ⟨List.replicate cap 0, [], 0⟩) {w : WinWorld} {b : InfiniteRing} {s : Lossy} {k : Kernel}
    {obj : Nat → Obj} (tr : WinLossy tab t j cap wb w s) (held : w.held j = some (.inf b)) (kw : Wf t k)
    (sh : WinShows w.s k obj) (bs : List Byte) (need : s.total + min bs.length cap < posBound t cap) :
    s.all.length = cap ∧ ∃ b' k' w', InfiniteRing.takeAll t k b bs = .ok ((k', b'), .ok ()) ∧
      WinOnlyCalls tab t (· = j) w w' ∧ WinLossy tab t j cap wb w' (s.append (lastN cap bs)) ∧
      w'.held j = some (.inf b') ∧ Wf t k' ∧ WinShows w'.s k' obj := by
  obtain ⟨g1, g2⟩ := WinLossy.holds wf laid reach start tr
  obtain ⟨r, v, c, rfl, all, total, qlen, le, pos⟩ := id g2
  rw [c.held] at held
  cases held
  have rep := WinHoldsInf.rep wf laid g1 c all total qlen le pos sh
  have hc := rep.all_len
  refine ⟨hc, ?_⟩
  have ht : (lastN b.len bs).length = min bs.length b.len := by simp [lastN]; omega
  have hs : (s.step (.write (lastN b.len bs))).1 = s.append (lastN b.len bs) := by
    simp only [Lossy.step]
    rw [List.take_of_length_le (by rw [ht, hc]; omega)]
  have below : (s.step (.write (lastN b.len bs))).1.total < posBound t b.len := by
    rw [hs]; show s.total + (lastN b.len bs).length < _
    rw [ht]; exact need
  obtain ⟨k', b', w', e, call, hh, kw', sh'⟩ := g2.run (tab := tab) (op := .write (lastN b.len bs)) wf laid g1 c.held below
    trivial kw sh
  have tr' := tr.call (op := .write (lastN b.len bs)) below (by simp) trivial call
  rw [hs] at tr'
  refine ⟨b', k', w', ?_, .inf .refl rfl call, tr', hh, kw', sh'⟩
  simp only [InfiniteRing.takeAll, inf_writeAll_write rep bs e, bind, Except.bind, pure, Except.pure]

theorem win_to_inf {ρ : Type} {rd : Kernel → ρ → Nat → Exec (ρ × List Byte)} {i j cap : Nat} (hij : i ≠ j)
    {H : WinWorld → ρ → List Byte → Prop} (wf : WinWf t s0) (laid : WinLaid t s0) {wb : WinWorld}
    (reach : WinReach tab t s0 wb) (start : WinHoldsInf t wb j cap ⟨List.replicate cap 0, [], 0⟩)
    (src : WinSource tab t rd i H) {size : Nat} (pos : 0 < size) {obj : Nat → Obj} :
    ∀ (steps : Nat) {w : WinWorld} {k : Kernel} {a : ρ} {q : List Byte} {b : InfiniteRing} {s : Lossy} (len : Nat),
    H w a q → w.held j = some (.inf b) → WinLossy tab t j cap wb w s → Wf t k → WinShows w.s k obj →
    s.total + q.length < posBound t cap → q.length < steps →
    ∃ k' a' b' w' s', copyRings rd (InfiniteRing.takeAll t) size steps k a b len =
        .ok (k', a', b', some (.ok (len + q.length))) ∧
      WinOnlyCalls tab t (fun l => l = i ∨ l = j) w w' ∧ H w' a' [] ∧ w'.held j = some (.inf b') ∧
      WinLossy tab t j cap wb w' s' ∧ s'.q = lastN cap (s.q ++ q) ∧ Wf t k' ∧ WinShows w'.s k' obj := by
  intro steps
  induction steps with
  | zero => intro w k a q b s len _ _ _ _ _ _ hs; omega
  | succ steps ih =>
    intro w k a q b s len ha hh tr kw sh need hs
    have hlen : (q.take size).length = min size q.length := List.length_take
    obtain ⟨a', w1, e1, c1, h1, sh1⟩ := src.read ha kw sh size
    obtain ⟨tr1, hh1⟩ := tr.keep wf laid reach start hij hh c1
    have m1 : WinOnlyCalls tab t (fun l => l = i ∨ l = j) w w1 := c1.mono (fun l h => .inl h)
    obtain ⟨hcap, b', k', w', e2, c2, tr2, hh2, kw2, sh2⟩ := win_inf_sink wf laid reach start tr1 hh1 kw sh1 (q.take size)
      (by rw [hlen]; omega)
    by_cases hq : q = []
    · subst hq
      refine ⟨k, a', b, w1, s, ?_, m1, by simpa using h1, hh1, tr1, ?_, kw, sh1⟩
      · simp [copyRings, e1, bind, Except.bind, pure, Except.pure]
      · rw [List.append_nil, lastN_all]
        have : s.all.length = s.old.length + s.q.length := by simp [Lossy.all]
        omega
    · have h2 := src.keep (Ne.symm hij) h1 c2
      have c := m1.trans (c2.mono (fun l h => Or.inr h) : WinOnlyCalls tab t (fun l => l = i ∨ l = j) w1 w')
      have hql : 0 < q.length := by
        have : q.length ≠ 0 := fun h => hq (List.eq_nil_of_length_eq_zero h)
        omega
      have hl : (q.take size).length ≠ 0 := by rw [hlen]; omega
      have hsz : ¬ size < (q.take size).length := by rw [hlen]; omega
      simp only [copyRings, e1, bind, Except.bind, if_neg hl, if_neg hsz, e2]
      have htt : (s.append (lastN cap (q.take size))).total = s.total + min (q.take size).length cap := by
        simp only [Lossy.append, lastN, List.length_drop]; omega
      have hdl : (q.drop size).length = q.length - (q.take size).length := by
        rw [List.length_drop, hlen]; omega
      obtain ⟨k3, a3, b3, w3, s3, e3, c3, h3, hh3, tr3, q3, kw3, sh3⟩ := ih (len + (q.take size).length) h2 hh2 tr2 kw2 sh2
        (by rw [htt, hdl]; omega) (by rw [hdl]; omega)
      refine ⟨k3, a3, b3, w3, s3, ?_, c.trans c3, h3, hh3, tr3, ?_, kw3, sh3⟩
      · rw [e3, hdl]; congr 6; omega
      · rw [q3, append_q hcap, lastN_lastN, lastN_front, List.append_assoc, List.take_append_drop]

end
end Vmap
