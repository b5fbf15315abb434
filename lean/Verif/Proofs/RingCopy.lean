import Verif.Model.RingCopy
import Verif.Spec.RingCopy
import Verif.Proofs.UnixQueue
import Verif.Proofs.Lines
import Verif.Props.InfiniteRing
/- Helper lemmas for C168. -/
namespace Vmap
open Kernel Spec

section
variable {tab : SysTable} {t : Target} {k0 : Kernel}

theorem calledRing_target {op : Op} {i : Nat} (h : calledRing op = some i) : op.target = some i := by
  cases op <;> simp only [calledRing, reduceCtorEq] at h <;> exact h

theorem Spec.OnlyCalls.trans {S : Nat → Prop} {w w1 w2 : World} (a : OnlyCalls tab t S w w1)
    (b : OnlyCalls tab t S w1 w2) : OnlyCalls tab t S w w2 := by
  induction b with
  | refl => exact a
  | step _ c d e f ih => exact .step ih c d e f

theorem Spec.OnlyCalls.mono {S S' : Nat → Prop} {w w1 : World} (hs : ∀ i, S i → S' i)
    (a : OnlyCalls tab t S w w1) : OnlyCalls tab t S' w w1 := by
  induction a with
  | refl => exact .refl
  | step _ c d e f ih => exact .step ih c (hs _ d) e f

theorem Spec.OnlyCalls.reach {S : Nat → Prop} {w w1 : World} (a : OnlyCalls tab t S w w1)
    (h : Reach tab t k0 w) : Reach tab t k0 w1 := by
  induction a with
  | refl => exact h
  | step _ c d e f ih => exact .step ih e f

/-- What is known of a source: reading takes bytes off its front, calls on other rings leave it alone. -/
structure SourceLaw {ρ : Type} (tab : SysTable) (t : Target) (k0 : Kernel)
    (rd : Kernel → ρ → Nat → Exec (ρ × List Byte)) (i : Nat) (H : World → ρ → List Byte → Prop) : Prop where
  read : ∀ {w a q}, Reach tab t k0 w → H w a q → ∀ n, ∃ a' w', rd w.k a n = .ok (a', q.take n) ∧ w'.k = w.k ∧
    OnlyCalls tab t (· = i) w w' ∧ H w' a' (q.drop n)
  keep : ∀ {w a q}, Reach tab t k0 w → H w a q → ∀ {w' op}, op.Sane t w → w.step tab t op = .ok w' →
    op.target ≠ some i → H w' a q

/-- What is known of a target in state `x`. -/
structure SinkLaw {ω X : Type} (tab : SysTable) (t : Target) (k0 : Kernel)
    (all : Kernel → ω → List Byte → Exec ((Kernel × ω) × IoResult Unit)) (j : Nat) (K : World → ω → X → Prop)
    (need : X → Nat → Prop) (res : X → List Byte → IoResult Unit) (after : X → List Byte → X) : Prop where
  write : ∀ {w b x}, Reach tab t k0 w → K w b x → ∀ bs, need x bs.length → ∃ b' w',
    all w.k b bs = .ok ((w'.k, b'), res x bs) ∧ OnlyCalls tab t (· = j) w w' ∧ K w' b' (after x bs)
  keep : ∀ {w b x}, Reach tab t k0 w → K w b x → ∀ {w' op}, op.Sane t w → w.step tab t op = .ok w' →
    op.target ≠ some j → K w' b x

theorem keep_calls {H : World → Prop} {i j : Nat} (hij : i ≠ j)
    (keep : ∀ {w}, Reach tab t k0 w → H w → ∀ {w' op}, op.Sane t w → w.step tab t op = .ok w' →
      op.target ≠ some i → H w') {w w' : World} (h : Reach tab t k0 w) (hw : H w)
    (c : OnlyCalls tab t (· = j) w w') : H w' := by
  induction c with
  | refl => exact hw
  | step before call on sane st ih =>
    refine keep (before.reach h) ih sane st ?_
    rw [calledRing_target call, on]
    intro hc; injection hc with hc; exact hij hc.symm

/-- One round of a copy. -/
theorem copy_round {ρ ω X : Type} {rd : Kernel → ρ → Nat → Exec (ρ × List Byte)}
    {all : Kernel → ω → List Byte → Exec ((Kernel × ω) × IoResult Unit)} {i j : Nat} (hij : i ≠ j)
    {H : World → ρ → List Byte → Prop} {K : World → ω → X → Prop} {need : X → Nat → Prop}
    {res : X → List Byte → IoResult Unit} {after : X → List Byte → X} (src : SourceLaw tab t k0 rd i H)
    (snk : SinkLaw tab t k0 all j K need res after) {size : Nat} (pos : 0 < size) {w : World}
    (h : Reach tab t k0 w) {a : ρ} {q : List Byte} (ha : H w a q) {b : ω} {x : X} (hb : K w b x)
    (hn : need x (q.take size).length) (steps len : Nat) :
    ∃ a' b' w', OnlyCalls tab t (fun l => l = i ∨ l = j) w w' ∧ H w' a' (q.drop size) ∧
      (q = [] → K w' b x ∧ copyRings rd all size (steps + 1) w.k a b len = .ok (w'.k, a', b, some (.ok len))) ∧
      (q ≠ [] → K w' b' (after x (q.take size)) ∧ copyRings rd all size (steps + 1) w.k a b len =
        match res x (q.take size) with
        | .ok () => copyRings rd all size steps w'.k a' b' (len + (q.take size).length)
        | .error e => .ok (w'.k, a', b', some (.error e))) := by
  obtain ⟨a', w1, e1, k1, c1, h1⟩ := src.read h ha size
  have r1 := c1.reach h
  have hb1 : K w1 b x := keep_calls (H := fun w => K w b x) (Ne.symm hij) (fun {w} r k => snk.keep r k) h hb c1
  have m1 : OnlyCalls tab t (fun l => l = i ∨ l = j) w w1 := c1.mono (fun l h => .inl h)
  by_cases hq : q = []
  · subst hq
    refine ⟨a', b, w1, m1, h1, fun _ => ⟨hb1, ?_⟩, fun h => absurd rfl h⟩
    simp only [copyRings, e1, bind, Except.bind, List.take_nil, List.length_nil, if_pos, pure, Except.pure, k1]
  · obtain ⟨b', w2, e2, c2, k2⟩ := snk.write r1 hb1 (q.take size) hn
    have h2 : H w2 a' (q.drop size) :=
      keep_calls (H := fun w => H w a' (q.drop size)) hij (fun {w} r k => src.keep r k) r1 h1 c2
    refine ⟨a', b', w2, m1.trans (c2.mono (fun l h => .inr h)), h2, fun h => absurd h hq, fun _ => ⟨k2, ?_⟩⟩
    have hl : (q.take size).length ≠ 0 := by
      have : q.length ≠ 0 := fun h => hq (List.eq_nil_of_length_eq_zero h)
      rw [List.length_take]; omega
    have hs : ¬ size < (q.take size).length := by rw [List.length_take]; omega
    rw [k1] at e2
    simp only [copyRings, e1, bind, Except.bind, if_neg hl, if_neg hs, e2]
    cases res x (q.take size) with
    | ok u => rfl
    | error e => rfl

/-! ### The four kinds of rings -/

theorem ring_source (wf : Wf t k0) (i cap : Nat) :
    SourceLaw tab t k0 (fun k (a : Ring) n => a.read t k n) i
      (fun w a q => ∃ s, w.held i = some (.ring a s.total) ∧ HoldsRing t w i cap s ∧ s.q = q) := by
  refine ⟨?_, ?_⟩
  · rintro w a q h ⟨s, held, g, rfl⟩ n
    have below : (s.step (.read n)).1.total < posBound t cap := by
      obtain ⟨v, hl, -⟩ := g.view wf h held
      have := v.below
      rw [hl] at this
      exact this
    obtain ⟨k', a', w', e, st, hk, hh, r', g'⟩ := g.call h below held
    simp only [Ring.exec, bind, Except.bind] at e
    cases hr : a.read t w.k n with
    | error f => rw [hr] at e; cases e
    | ok x =>
      rw [hr] at e
      obtain ⟨a1, bs⟩ := x
      simp only [pure, Except.pure, Win.step, Except.ok.injEq, Prod.mk.injEq, Resp.bytes.injEq] at e
      obtain ⟨⟨e1, e2⟩, e3⟩ := e
      subst e2 e3
      refine ⟨a1, w', rfl, by rw [hk, e1], .step .refl rfl rfl ?_ st, _, hh, g', rfl⟩
      intro r2 n2 l h2 hl2
      rw [held] at h2; injection h2 with h2; injection h2 with h2 h3; subst h2; subst h3
      obtain ⟨v, hl, -⟩ := g.view wf h held
      rw [hl]; exact below
  · rintro w a q h ⟨s, held, g, rfl⟩ w' op sane st ht
    obtain ⟨-, g', hh⟩ := g.other wf h sane st ht
    exact ⟨s, by rw [hh, held], g', rfl⟩

theorem inf_source (wf : Wf t k0) (i cap : Nat) :
    SourceLaw tab t k0 (fun k (a : InfiniteRing) n => a.read t k n) i
      (fun w a q => ∃ s, w.held i = some (.inf a s.total) ∧ HoldsInf t w i cap s ∧ s.q = q) := by
  refine ⟨?_, ?_⟩
  · rintro w a q h ⟨s, held, g, rfl⟩ n
    have below : (s.step (.read n)).1.total < posBound t cap := by
      obtain ⟨r, o, hi, hl, rep⟩ := id g
      have := rep.pos
      rw [rep.total, hl] at this
      show s.total < _
      unfold posBound
      split
      · exact this.1
      · rename_i hn
        exact this.2.resolve_left hn
    obtain ⟨k', a', w', e, st, hk, hh, r', g'⟩ := g.call h below (by simp) trivial held
    simp only [InfiniteRing.exec, bind, Except.bind] at e
    cases hr : a.read t w.k n with
    | error f => rw [hr] at e; cases e
    | ok x =>
      rw [hr] at e
      obtain ⟨a1, bs⟩ := x
      simp only [pure, Except.pure, Lossy.step, Except.ok.injEq, Prod.mk.injEq, Resp.bytes.injEq] at e
      obtain ⟨⟨e1, e2⟩, e3⟩ := e
      subst e2 e3
      refine ⟨a1, w', rfl, by rw [hk, e1], .step .refl rfl rfl ?_ st, _, hh, g', rfl⟩
      intro r2 n2 l h2 hl2
      rw [held] at h2; injection h2 with h2; injection h2 with h2 h3; subst h2; subst h3
      obtain ⟨r, o, hi, hl, rep⟩ := id g
      rw [held] at hi; injection hi with hi; injection hi with hi hn; subst hi
      refine ⟨by simp, ?_, trivial⟩
      rw [hl]; exact below
  · rintro w a q h ⟨s, held, g, rfl⟩ w' op sane st ht
    obtain ⟨-, g'⟩ := g.other wf h sane st ht
    have := (step_ok tab (h.inv wf) sane st).fx
    obtain ⟨S, -, hS⟩ := this
    exact ⟨s, (hS i _ held ht).1, g', rfl⟩

theorem ring_sink (wf : Wf t k0) (j cap : Nat) :
    SinkLaw tab t k0 (fun k (b : Ring) bs => b.writeAll t k bs) j
      (fun w b s => w.held j = some (.ring b s.total) ∧ HoldsRing t w j cap s)
      (fun s n => s.total + min n s.spare.length < posBound t cap)
      (fun s bs => if bs.length ≤ s.spare.length then .ok () else .error (.ofKind .writeZero))
      (fun s bs => (s.step (.write bs)).1) := by
  have one : ∀ {w : World} {b : Ring} {s : Spec.Win} (bs : List Byte), Reach tab t k0 w →
      w.held j = some (.ring b s.total) → HoldsRing t w j cap s →
      s.total + min bs.length s.spare.length < posBound t cap →
      ∃ b' w', b.write t w.k bs = .ok (w'.k, b', min bs.length s.spare.length) ∧
        OnlyCalls tab t (· = j) w w' ∧ w'.held j = some (.ring b' (s.step (.write bs)).1.total) ∧
        HoldsRing t w' j cap (s.step (.write bs)).1 := by
    intro w b s bs h held g need
    obtain ⟨k', b', w', e, st, hk, hh, r', g'⟩ := g.call (op := .write bs) h need held
    simp only [Ring.exec, bind, Except.bind] at e
    cases hr : b.write t w.k bs with
    | error f => rw [hr] at e; cases e
    | ok x =>
      rw [hr] at e
      obtain ⟨k1, b1, n⟩ := x
      simp only [pure, Except.pure, Win.step, Except.ok.injEq, Prod.mk.injEq, Resp.num.injEq] at e
      obtain ⟨⟨e1, e2⟩, e3⟩ := e
      subst e1 e2 e3
      refine ⟨b1, w', by rw [hk], .step .refl rfl rfl ?_ st, hh, g'⟩
      intro r2 n2 l h2 hl2
      rw [held] at h2; injection h2 with h2; injection h2 with h2 h3; subst h2; subst h3
      obtain ⟨v, hl, -⟩ := g.view wf h held
      rw [v.writeLen] at hl2; injection hl2 with hl2; subst hl2
      rw [hl]; exact need
  refine ⟨?_, ?_⟩
  · rintro w b s h ⟨held, g⟩ bs need
    by_cases hb : bs.length = 0
    · have hb' := List.eq_nil_of_length_eq_zero hb
      subst hb'
      refine ⟨b, w, ?_, .refl, ?_⟩
      · rw [Ring.writeAll, dif_pos hb, if_pos (by simp)]
      · have : (s.step (.write [])).1 = s := by simp [Win.step]
        rw [this]; exact ⟨held, g⟩
    · obtain ⟨b1, w1, e1, c1, hh1, g1⟩ := one bs h held g need
      rw [Ring.writeAll, dif_neg hb]
      simp only [e1]
      by_cases hz : min bs.length s.spare.length = 0
      · refine ⟨b1, w1, ?_, c1, hh1, g1⟩
        rw [dif_pos hz, if_neg (by omega)]
      · rw [dif_neg hz, if_neg (by omega)]
        by_cases hf : bs.length ≤ s.spare.length
        · refine ⟨b1, w1, ?_, c1, hh1, g1⟩
          rw [if_pos hf, Nat.min_eq_left hf, Ring.writeAll, dif_pos (by simp)]
        · have hm : min bs.length s.spare.length = s.spare.length := Nat.min_eq_right (by omega)
          have hsp : (s.step (.write bs)).1.spare = [] := by simp [Win.step, hm]
          have ht : (s.step (.write bs)).1.total = s.total + min bs.length s.spare.length := rfl
          obtain ⟨b2, w2, e2, c2, hh2, g2⟩ := one (bs.drop (min bs.length s.spare.length)) (c1.reach h) hh1 g1
            (by rw [hsp, ht]; simp only [List.length_nil, Nat.min_zero, Nat.add_zero]; exact need)
          have hs2 : ((s.step (.write bs)).1.step (.write (bs.drop (min bs.length s.spare.length)))).1 =
              (s.step (.write bs)).1 := by simp [Win.step, hm]
          rw [hs2] at hh2 g2
          refine ⟨b2, w2, ?_, c1.trans c2, hh2, g2⟩
          rw [Ring.writeAll, dif_neg (by simp; omega)]
          simp only [e2, hsp, List.length_nil, Nat.min_zero]
          rw [dif_pos trivial, if_neg hf]
  · rintro w b s h ⟨held, g⟩ w' op sane st ht
    obtain ⟨-, g', hh⟩ := g.other wf h sane st ht
    exact ⟨by rw [hh, held], g'⟩

theorem inf_sink (wf : Wf t k0) (j cap : Nat) :
    SinkLaw tab t k0 (InfiniteRing.takeAll t) j
      (fun w b s => w.held j = some (.inf b s.total) ∧ HoldsInf t w j cap s)
      (fun s n => s.total + min n cap < posBound t cap) (fun _ _ => .ok ())
      (fun s bs => s.append (lastN cap bs)) := by
  refine ⟨?_, ?_⟩
  · rintro w b s h ⟨held, g⟩ bs need
    obtain ⟨k', b', w', e, st, hk, hh, r', g'⟩ := g.writeAll h need held
    have ht : (s.append (lastN cap bs)).total = s.total + min bs.length cap := by
      simp [Lossy.append, lastN]; omega
    refine ⟨b', w', ?_, .step .refl rfl rfl ?_ st, by rw [ht]; exact hh, g'⟩
    · simp only [InfiniteRing.takeAll, e, bind, Except.bind, pure, Except.pure, hk]
    · intro r2 n2 h2
      rw [held] at h2; injection h2 with h2; injection h2 with h2 h3; subst h2; subst h3
      obtain ⟨r, o, hi, hl, rep⟩ := id g
      rw [held] at hi; injection hi with hi; injection hi with hi hn; subst hi
      rw [hl]; exact need
  · rintro w b s h ⟨held, g⟩ w' op sane st ht
    obtain ⟨-, g'⟩ := g.other wf h sane st ht
    obtain ⟨S, -, hS⟩ := (step_ok tab (h.inv wf) sane st).fx
    exact ⟨(hS j _ held ht).1, g'⟩

/-! ### Whole copies -/

theorem leaves_more {size room len c : Nat} (hc : c = min size len) (fit : c ≤ room) (pos : 0 < size) :
    leaves size room len = c + leaves size (room - c) (len - c) ∧ (len ≤ room ↔ len - c ≤ room - c) := by
  have hi : len ≤ room ↔ len - c ≤ room - c := by omega
  refine ⟨?_, hi⟩
  unfold leaves
  by_cases hl : len ≤ room
  · rw [if_pos hl, if_pos (hi.mp hl)]; omega
  · rw [if_neg hl, if_neg (fun h => hl (hi.mpr h))]
    have hs : c = size := by omega
    subst hs
    have hd : room / c = (room - c) / c + 1 := Nat.div_eq_sub_div pos fit
    rw [hd, Nat.add_mul ((room - c) / c + 1), Nat.one_mul]
    omega

theorem to_ring {ρ : Type} {rd : Kernel → ρ → Nat → Exec (ρ × List Byte)} {i j cap : Nat} (hij : i ≠ j)
    {H : World → ρ → List Byte → Prop} (wf : Wf t k0) (src : SourceLaw tab t k0 rd i H) {size : Nat}
    (pos : 0 < size) : ∀ (steps : Nat) {w : World} {a : ρ} {q : List Byte} {b : Ring} {s : Spec.Win} (len : Nat),
    Reach tab t k0 w → H w a q → w.held j = some (.ring b s.total) → HoldsRing t w j cap s →
    s.total + min q.length s.spare.length < posBound t cap → q.length < steps →
    ∃ a' b' w' s', copyRings rd (fun k (b : Ring) bs => b.writeAll t k bs) size steps w.k a b len =
        .ok (w'.k, a', b', some (if q.length ≤ s.spare.length then .ok (len + q.length)
          else .error (.ofKind .writeZero))) ∧
      OnlyCalls tab t (fun l => l = i ∨ l = j) w w' ∧
      H w' a' (q.drop (leaves size s.spare.length q.length)) ∧ w'.held j = some (.ring b' s'.total) ∧
      HoldsRing t w' j cap s' ∧ s'.q = s.q ++ q.take s.spare.length := by
  intro steps
  induction steps with
  | zero => intro w a q b s len _ _ _ _ _ hs; omega
  | succ steps ih =>
    intro w a q b s len h ha hh hb need hs
    have hlen : (q.take size).length = min size q.length := List.length_take
    obtain ⟨a', b', w', c, ha', nil, cons⟩ := copy_round hij src (ring_sink wf j cap) pos h ha ⟨hh, hb⟩
      (by simp only [hlen]; omega) steps len
    by_cases hq : q = []
    · subst hq
      obtain ⟨⟨k1, k2⟩, e⟩ := nil rfl
      refine ⟨a', b, w', s, by simpa using e, c, by simpa using ha', k1, k2, by simp⟩
    · obtain ⟨⟨k1, k2⟩, e⟩ := cons hq
      rw [e]
      have hql : 0 < q.length := by
        have : q.length ≠ 0 := fun h => hq (List.eq_nil_of_length_eq_zero h)
        omega
      by_cases hf : (q.take size).length ≤ s.spare.length
      · simp only [if_pos hf]
        have hm : min (q.take size).length s.spare.length = (q.take size).length := Nat.min_eq_left hf
        have hsp : (s.step (.write (q.take size))).1.spare = s.spare.drop (q.take size).length := by
          simp only [Win.step, hm]
        have htt : (s.step (.write (q.take size))).1.total = s.total + (q.take size).length := by
          simp only [Win.step, hm]
        have hsq : (s.step (.write (q.take size))).1.q = s.q ++ q.take size := by
          simp only [Win.step, hm, List.take_length]
        obtain ⟨lv, iff⟩ := leaves_more (size := size) (room := s.spare.length) (len := q.length) hlen hf pos
        have hdl : (q.drop size).length = q.length - (q.take size).length := by
          rw [List.length_drop, hlen]; omega
        have hsl : (s.spare.drop (q.take size).length).length = s.spare.length - (q.take size).length :=
          List.length_drop
        obtain ⟨a2, b2, w2, s2, e2, c2, h2, hh2, g2, q2⟩ := ih (len + (q.take size).length) (c.reach h) ha' k1 k2
          (by rw [hsp, htt, hdl, hsl]; omega) (by rw [hdl]; omega)
        rw [hsp, hsl] at e2 h2 q2
        rw [hdl] at e2 h2
        refine ⟨a2, b2, w2, s2, ?_, c.trans c2, ?_, hh2, g2, ?_⟩
        · rw [e2]
          by_cases hr : q.length ≤ s.spare.length
          · rw [if_pos hr, if_pos (iff.mp hr)]
            congr 6; omega
          · rw [if_neg hr, if_neg (fun h => hr (iff.mpr h))]
        · rw [List.drop_drop] at h2
          rw [lv]
          by_cases hle : size ≤ q.length
          · rw [hlen, Nat.min_eq_left hle] at h2 ⊢; exact h2
          · have d1 : ∀ n, q.drop (size + n) = [] := fun n => List.drop_eq_nil_of_le (by omega)
            have d2 : ∀ n, q.drop ((q.take size).length + n) = [] :=
              fun n => List.drop_eq_nil_of_le (by rw [hlen]; omega)
            rw [d1] at h2
            rw [d2]; exact h2
        · rw [q2, hsq, List.append_assoc]
          congr 1
          by_cases hle : size ≤ q.length
          · rw [hlen, Nat.min_eq_left hle] at hf ⊢
            rw [← List.take_add, Nat.add_sub_cancel' hf]
          · rw [List.take_of_length_le (by omega : q.length ≤ size), List.drop_eq_nil_of_le (by omega),
              List.take_nil, List.append_nil, List.take_of_length_le]
            rw [hlen] at hf; omega
      · simp only [if_neg hf]
        have hm : min (q.take size).length s.spare.length = s.spare.length := Nat.min_eq_right (by omega)
        refine ⟨a', b', w', _, ?_, c, ?_, k1, k2, ?_⟩
        · rw [if_neg (by rw [hlen] at hf; omega)]
        · have : leaves size s.spare.length q.length = size := by
            unfold leaves
            rw [if_neg (by rw [hlen] at hf; omega), Nat.div_eq_of_lt (by rw [hlen] at hf; omega)]
            omega
          rw [this]; exact ha'
        · simp only [Win.step, hm, List.take_take]
          congr 2
          rw [hlen] at hf; omega

theorem to_inf {ρ : Type} {rd : Kernel → ρ → Nat → Exec (ρ × List Byte)} {i j cap : Nat} (hij : i ≠ j)
    {H : World → ρ → List Byte → Prop} (wf : Wf t k0) (src : SourceLaw tab t k0 rd i H) {size : Nat}
    (pos : 0 < size) : ∀ (steps : Nat) {w : World} {a : ρ} {q : List Byte} {b : InfiniteRing} {s : Lossy} (len : Nat),
    Reach tab t k0 w → H w a q → w.held j = some (.inf b s.total) → HoldsInf t w j cap s →
    s.total + q.length < posBound t cap → q.length < steps →
    ∃ a' b' w' s', copyRings rd (InfiniteRing.takeAll t) size steps w.k a b len =
        .ok (w'.k, a', b', some (.ok (len + q.length))) ∧
      OnlyCalls tab t (fun l => l = i ∨ l = j) w w' ∧ H w' a' [] ∧ w'.held j = some (.inf b' s'.total) ∧
      HoldsInf t w' j cap s' ∧ s'.q = lastN cap (s.q ++ q) := by
  intro steps
  induction steps with
  | zero => intro w a q b s len _ _ _ _ _ hs; omega
  | succ steps ih =>
    intro w a q b s len h ha hh hb need hs
    have hlen : (q.take size).length = min size q.length := List.length_take
    have hcap : s.all.length = cap := by
      obtain ⟨r, o, hi, hl, rep⟩ := id hb
      rw [rep.all_len, hl]
    obtain ⟨a', b', w', c, ha', nil, cons⟩ := copy_round hij src (inf_sink wf j cap) pos h ha ⟨hh, hb⟩
      (by simp only [hlen]; omega) steps len
    by_cases hq : q = []
    · subst hq
      obtain ⟨⟨k1, k2⟩, e⟩ := nil rfl
      refine ⟨a', b, w', s, by simpa using e, c, by simpa using ha', k1, k2, ?_⟩
      rw [List.append_nil, lastN_all]
      have : s.all.length = s.old.length + s.q.length := by simp [Lossy.all]
      omega
    · obtain ⟨⟨k1, k2⟩, e⟩ := cons hq
      rw [e]
      simp only
      have htt : (s.append (lastN cap (q.take size))).total = s.total + min (q.take size).length cap := by
        simp only [Lossy.append, lastN, List.length_drop]; omega
      have hdl : (q.drop size).length = q.length - (q.take size).length := by
        rw [List.length_drop, hlen]; omega
      have hql : 0 < q.length := by
        have : q.length ≠ 0 := fun h => hq (List.eq_nil_of_length_eq_zero h)
        omega
      obtain ⟨a2, b2, w2, s2, e2, c2, h2, hh2, g2, q2⟩ := ih (len + (q.take size).length) (c.reach h) ha' k1 k2
        (by rw [htt, hdl]; omega) (by rw [hdl]; omega)
      refine ⟨a2, b2, w2, s2, ?_, c.trans c2, h2, hh2, g2, ?_⟩
      · rw [e2, hdl]; congr 6; omega
      · rw [q2, append_q hcap, lastN_lastN, lastN_front, List.append_assoc, List.take_append_drop]

end
end Vmap
