import Verif.Proofs.Coherent
import Verif.Props.World
/- Helper lemmas: allocated memory in the course of a whole program. -/
namespace Vmap
open Kernel Spec

/-- The memory stays a handle's own if no page comes to show another object. -/
theorem own_kept {k k' : Kernel} {x : Handle} (own : Own k x) (hp : k'.page = k.page)
    (hf : k'.fds = k.fds) (hn : k'.names = k.names)
    (hpt : ∀ q e', k'.pt q = some e' → ∃ e, k.pt q = some e ∧ e'.obj = e.obj) : Own k' x := by
  intro q e' hq he'
  rw [hp] at hq
  obtain ⟨e, h1, h2⟩ := hpt q e' he'
  obtain ⟨o1, o2, o3⟩ := own q e hq h1
  rw [h2, hf, hn, hp]
  refine ⟨o1, o2, fun q2 e2 h3 h4 => ?_⟩
  obtain ⟨e3, h5, h6⟩ := hpt q2 e2 h3
  exact o3 q2 e3 h5 (by rw [← h6, h4])

section
variable {tab : SysTable} {t : Target} {k0 : Kernel} {w w' : World}

/-- What is known of allocated memory. -/
structure CellInv (k : Kernel) (m : MapMut) (o : Obj) (d : Nat) (sh : Bool) (c : Nat → Byte) :
    Prop where
  own : Own k (.map m)
  over : k.Over m o d sh
  inside : ∀ j, j < m.len → (d + j) / k.page * k.page < k.size o
  zero : sh = false → ∀ x, k.data o x = 0
  laid : ∃ ov, k.Laid m ov ∧ ∀ j, j < m.len → c j = (ov j).getD (k.data o (d + j))

/-- A shared page has nothing for itself. -/
theorem laid_shared {k : Kernel} (wf : Wf t k) {m : MapMut} {o d} (h : k.Over m o d true) :
    k.Laid m (fun _ => none) := by
  intro j hj e he
  obtain ⟨e', h1, -, -, h4, -⟩ := h j hj
  rw [he] at h1
  injection h1 with h1
  subst h1
  unfold at?
  rw [wf.shared _ e he h4]; rfl

theorem CellInv.other (wf : Wf t k0) (h : Reach tab t k0 w) {m o d sh c i}
    (g : CellInv w.k m o d sh c) (hm : w.held i = some (.map m)) (hpos : 0 < m.len) {op : Op}
    (sane : op.Sane t w) (st : w.step tab t op = .ok w') (ht : op.target ≠ some i) :
    CellInv w'.k m o d sh c := by
  have v := h.inv wf
  have hd : op ≠ .drop i := by
    intro hd; rw [hd] at ht; exact ht rfl
  have s := step_ok tab v sane st
  obtain ⟨S, fx, hS⟩ := s.fx
  obtain ⟨-, hS⟩ := hS i _ hm ht
  obtain ⟨e0, a1, a2, -⟩ := g.over 0 hpos
  have hon0 := onPage_byte (u := w.k.page) v.wf.page_pos hpos
  have hid : Hid w.k S anyFd o := by
    obtain ⟨o1, o2, o3⟩ := g.own _ e0 hon0 a1
    rw [a2] at o1 o2 o3
    refine ⟨by rw [← a2]; exact (v.wf.objs _ e0 a1).1, fun d f _ => o1 d f, o2, ?_⟩
    intro q' e' hq' he'
    refine ⟨fun hc => hS q' (o3 q' e' he' hc) hq', fun hc => ?_⟩
    exact ((v.wf.excl q' e' o he' hc).1 _ e0 a1).1 a2
  obtain ⟨d1, d2, -⟩ := fx.hid anyFd o (fun _ _ => trivial) hid
  refine ⟨(C77_own wf h sane st hm ht g.own).1, over_step v sane st hm hd g.over, ?_, ?_, ?_⟩
  · intro j hj; rw [fx.page, d2]; exact g.inside j hj
  · intro hs x; rw [d1]; exact g.zero hs x
  · obtain ⟨ov, l1, l2⟩ := g.laid
    refine ⟨ov, ?_, fun j hj => by rw [d1]; exact l2 j hj⟩
    intro j hj e' he'
    rw [fx.page] at he' ⊢
    obtain ⟨e, h1, -⟩ := g.over j hj
    obtain ⟨c1, c2⟩ := copy_other v sane st hm ht (onPage_byte v.wf.page_pos hj) h1
    rw [he'] at c1
    injection c1 with c1
    subst c1
    rw [c2]; exact l1 j hj e' h1

theorem CellInv.tuned {k k' : Kernel} {m o d sh c} (g : CellInv k m o d sh c) (tn : Tuned k k') :
    CellInv k' m o d sh c := by
  refine ⟨own_kept g.own tn.page tn.fds tn.names ?_, tn.over g.over, ?_, ?_, ?_⟩
  · intro q e' he'
    cases he : k.pt q with
    | none => rw [tn.unmapped q he] at he'; cases he'
    | some e =>
      obtain ⟨e1, g1, g2, -⟩ := tn.pt q e he
      rw [he'] at g1; injection g1 with g1; subst g1
      exact ⟨e, rfl, g2⟩
  · intro j hj; rw [tn.page, tn.size]; exact g.inside j hj
  · intro hs x; rw [tn.data]; exact g.zero hs x
  · obtain ⟨ov, l1, l2⟩ := g.laid
    exact ⟨ov, tn.laid l1, fun j hj => by rw [tn.data]; exact l2 j hj⟩

theorem CellInv.store {k k' : Kernel} (wf : Wf t k) {m o d sh c} (g : CellInv k m o d sh c)
    (hfr : o < k.fresh) {idx : Nat} {b : Byte} (hidx : idx < m.len)
    (hst : k.store (m.ptr + idx) b = .ok k')
    (hov : k'.Over m o d sh) :
    CellInv k' m o d sh (fun j => if j = idx then b else c j) := by
  obtain ⟨wf', -, sf⟩ := store_effect (U := noPage) wf hst (S := fun _ => True) trivial
  have hown : Own k' (.map m) := by
    refine own_kept g.own sf.page sf.fds sf.names ?_
    intro q e' he'
    rcases sf.pt q with h | ⟨e, x, h1, -, h3⟩
    · exact ⟨e', by rw [← h]; exact he', rfl⟩
    · rw [he'] at h3; injection h3 with h3; subst h3
      exact ⟨e, h1, rfl⟩
  have hin : ∀ j, j < m.len → (d + j) / k'.page * k'.page < k'.size o := by
    intro j hj; rw [sf.page, sf.size]; exact g.inside j hj
  obtain ⟨ov, l1, l2⟩ := g.laid
  obtain ⟨e, a1, a2, a3, a4, a5⟩ := g.over idx hidx
  cases sh with
  | false =>
    have hd : k'.data o = k.data o := by
      have hst := hst
      unfold Kernel.store at hst
      rw [a1] at hst
      dsimp only at hst
      by_cases hb : (e.prot.w && k.backed e) = true
      · rw [if_pos hb, a4, if_neg (by decide)] at hst
        cases hc : e.copy with
        | some x =>
          rw [hc] at hst
          injection hst with hst
          subst hst
          have := ((wf.excl _ e x a1 hc).1 _ e a1).1
          rw [a2] at this
          funext y
          exact if_neg (fun h => this h.1)
        | none =>
          rw [hc] at hst
          injection hst with hst
          subst hst
          have hne : o ≠ k.fresh := by omega
          funext y
          show (if o = k.fresh ∧ _ then b else if o = k.fresh then _ else _) = _
          rw [if_neg (fun h => hne h.1), if_neg hne]
      · rw [if_neg hb] at hst; cases hst
    refine ⟨hown, hov, hin, fun hs x => by rw [hd]; exact g.zero hs x, _,
      laid_store wf hidx g.over l1 hst, ?_⟩
    intro j hj
    rw [hd]
    by_cases hji : j = idx
    · rw [if_pos hji, if_pos hji]; rfl
    · rw [if_neg hji, if_neg hji, l2 j hj]
      split
      · rfl
      · rfl
  | true =>
    have hk : k' = k.setByte o (d + idx) b := by
      unfold Kernel.store at hst
      rw [a1] at hst
      dsimp only at hst
      by_cases hb : (e.prot.w && k.backed e) = true
      · rw [if_pos hb, a4, if_pos rfl, a2, a3] at hst
        injection hst with hst
        exact hst.symm
      · rw [if_neg hb] at hst; cases hst
    refine ⟨hown, hov, hin, fun hs => (by cases hs), fun _ => none, laid_shared wf' hov, ?_⟩
    intro j hj
    have hnone : ov j = none := by
      obtain ⟨e1, b1, -⟩ := g.over j hj
      rw [← l1 j hj e1 b1]
      exact laid_shared wf g.over j hj e1 b1
    have hc := l2 j hj
    rw [hnone] at hc
    simp only [Option.getD_none] at hc ⊢
    rw [hk]
    show _ = if o = o ∧ d + j = d + idx then b else k.data o (d + j)
    by_cases hji : j = idx
    · rw [if_pos hji, if_pos ⟨rfl, by omega⟩]
    · rw [if_neg hji, if_neg (fun h => hji (by omega)), hc]

theorem CellInv.forget {k k' : Kernel} (wf : Wf t k) {m o d sh c a l} (g : CellInv k m o d sh c)
    (hov : k'.Over m o d sh)
    (f : k'.page = k.page ∧ k'.data = k.data ∧ k'.size = k.size ∧
      k'.fds = k.fds ∧ k'.names = k.names ∧
      ∀ q, k'.pt q = (k.pt q).map (fun e => open Classical in
        if OnPage k.page (m.ptr + a) l q then { e with copy := none } else e))
    {c' : Nat → Byte}
    (dr : ∀ j, OnPage k.page (m.ptr + a) l ((m.ptr + j) / k.page) → c' j = if !sh then 0 else c j)
    (kp : ∀ j, ¬ OnPage k.page (m.ptr + a) l ((m.ptr + j) / k.page) → c' j = c j) :
    CellInv k' m o d sh c' := by
  classical
  obtain ⟨f1, f2, f3, f4, f5, f6⟩ := f
  refine ⟨own_kept g.own f1 f4 f5 ?_, hov, ?_, ?_, ?_⟩
  · intro q e' he'
    rw [f6] at he'
    cases he : k.pt q with
    | none => rw [he] at he'; cases he'
    | some e =>
      rw [he] at he'
      injection he' with he'
      refine ⟨e, rfl, ?_⟩
      rw [← he']
      dsimp only
      split <;> rfl
  · intro j hj; rw [f1, f3]; exact g.inside j hj
  · intro hs x; rw [f2]; exact g.zero hs x
  · obtain ⟨ov, l1, l2⟩ := g.laid
    refine ⟨fun j => if OnPage k.page (m.ptr + a) l ((m.ptr + j) / k.page) then none else ov j, ?_, ?_⟩
    · intro j hj e' he'
      rw [f1] at he' ⊢
      rw [f6] at he'
      cases he : k.pt ((m.ptr + j) / k.page) with
      | none => rw [he] at he'; cases he'
      | some e =>
        rw [he] at he'
        injection he' with he'
        subst he'
        dsimp only
        by_cases hq : OnPage k.page (m.ptr + a) l ((m.ptr + j) / k.page)
        · rw [if_pos hq, if_pos hq]; rfl
        · rw [if_neg hq, if_neg hq, ← l1 j hj e he]
          unfold at?; rw [f2]
    · intro j hj
      rw [f2]
      dsimp only
      by_cases hq : OnPage k.page (m.ptr + a) l ((m.ptr + j) / k.page)
      · rw [if_pos hq, dr j hq, Option.getD_none]
        cases sh with
        | false => rw [g.zero rfl]; rfl
        | true =>
          show c j = _
          rw [l2 j hj]
          obtain ⟨e1, b1, -⟩ := g.over j hj
          rw [← l1 j hj e1 b1, laid_shared wf g.over j hj e1 b1]; rfl
      · rw [if_neg hq, kp j hq]; exact l2 j hj

/-- Allocated memory in the course of a program. -/
theorem Cells.inv (wf : Wf t k0) {i : Nat} {m : MapMut} {o d sh} (h : Reach tab t k0 w)
    (hpos : 0 < m.len)
    (hi : i < w.next) (hm : w.held i = some (.map m))
    (c0 : CellInv w.k m o d sh (fun _ => 0)) {c : Nat → Byte}
    (tr : Cells tab t i m (!sh) w w' c) :
    Reach tab t k0 w' ∧ i < w'.next ∧ w'.held i = some (.map m) ∧ CellInv w'.k m o d sh c := by
  induction tr with
  | made => exact ⟨h, hi, hm, c0⟩
  | @write w1 w2 c idx b before st ih =>
    obtain ⟨r1, i1, m1, c1⟩ := ih
    have v := r1.inv wf
    have o2 := over_step v (op := .set i idx b) trivial st m1 (by intro h; cases h) c1.over
    obtain ⟨hlt, k', rfl, hst⟩ := set_fx m1 st
    obtain ⟨e, a1, a2, -⟩ := c1.over 0 hpos
    exact ⟨.step (op := .set i idx b) r1 trivial st, i1, m1,
      c1.store v.wf (by rw [← a2]; exact (v.wf.objs _ e a1).1) hlt hst o2⟩
  | @forget w1 k2 c c' a l before sane call dr kp ih =>
    obtain ⟨r1, i1, m1, c1⟩ := ih
    have v := r1.inv wf
    obtain ⟨k', r, f1, f2, f3, f4⟩ := willNotNeed_fx (tab := tab) v m1 (a := a) (l := l) sane
    rw [call] at f1
    injection f1 with f1
    injection f1 with f1 f1'
    subst f1 f1'
    exact ⟨.step (op := .advise i a l .willNotNeed) r1 sane f2, i1, m1, c1.forget v.wf
      (over_step v (op := .advise i a l .willNotNeed) sane f2 m1 (by intro h; cases h) c1.over)
      (f4 rfl) dr kp⟩
  | @refused w1 k2 err c a l before sane call ih =>
    obtain ⟨r1, i1, m1, c1⟩ := ih
    have v := r1.inv wf
    obtain ⟨k', r, f1, f2, f3, f4⟩ := willNotNeed_fx (tab := tab) v m1 (a := a) (l := l) sane
    rw [call] at f1
    injection f1 with f1
    injection f1 with f1 f1'
    subst f1 f1'
    exact ⟨.step (op := .advise i a l .willNotNeed) r1 sane f2, i1, m1,
      c1.tuned (f3 (by intro h; cases h))⟩
  | @other w1 w2 c op before sane st held ns na ih =>
    obtain ⟨r1, i1, m1, c1⟩ := ih
    have v := r1.inv wf
    obtain ⟨b1, b2, b3⟩ := step_back st i1 held
    refine ⟨.step r1 sane st, b3, held, ?_⟩
    by_cases ht : op.target = some i
    · obtain ⟨k', rfl, tn⟩ := step_tuned v sane m1 ht b2 ns na st
      exact c1.tuned tn
    · exact c1.other wf r1 m1 hpos sane st ht

end
end Vmap
