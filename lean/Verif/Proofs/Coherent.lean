import Verif.Spec.Coherent
import Verif.Proofs.WorldStep
/- Helper lemmas: what a map shows in the course of a whole program. -/
namespace Vmap
open Kernel Spec

/-- Every byte of `m` lies on a readable page of object `o`, `off` being the first byte's place. -/
def Kernel.Over (k : Kernel) (m : MapMut) (o : Obj) (off : Nat) (sh : Bool) : Prop :=
  ∀ j, j < m.len → ∃ e, k.pt ((m.ptr + j) / k.page) = some e ∧ e.obj = o ∧
    e.idx * k.page + (m.ptr + j) % k.page = off + j ∧ e.shared = sh ∧ e.prot.r = true

theorem Kernel.MapsAll.over {k : Kernel} {m : MapMut} {o off sh mw prot}
    (h : k.MapsAll m.ptr m.len o off sh mw prot) (hr : prot.r = true) : k.Over m o off sh := by
  intro j hj
  obtain ⟨e, h1, h2, h3, h4, -, h6, -⟩ := h j hj
  exact ⟨e, h1, h2, h3, h4, by rw [h6]; exact hr⟩

/-- The memory cell behind a byte of a page. -/
def Kernel.at? (k : Kernel) (e : Pte) (r : Nat) : Option Byte := e.copy.map (fun c => k.data c r)

theorem load_over {k : Kernel} (hu : 0 < k.page) {a j : Nat} {e : Pte}
    (h1 : k.pt (a / k.page) = some e) (h2 : e.idx * k.page + a % k.page = j)
    (h3 : e.prot.r = true) :
    k.load a = if j / k.page * k.page < k.size e.obj then
      .ok ((k.at? e (a % k.page)).getD (k.data e.obj j)) else .error .memory := by
  have hq : j / k.page = e.idx := by
    rw [← h2, Nat.add_comm, Nat.add_mul_div_right _ _ hu, Nat.div_eq_of_lt (Nat.mod_lt _ hu),
      Nat.zero_add]
  unfold Kernel.load
  rw [h1, hq]
  simp only [h3, Bool.true_and, backed, decide_eq_true_eq, cell, at?]
  split
  · cases hc : e.copy with
    | none => simp only [h2, Option.map_none, Option.getD_none]
    | some c => simp only [Option.map_some, Option.getD_some]
  · rfl

/-- Nothing changed but protections (never from readable to not readable), lock states and
bookkeeping. -/
structure Tuned (k k' : Kernel) : Prop where
  page : k'.page = k.page
  data : k'.data = k.data
  size : k'.size = k.size
  pt : ∀ q e, k.pt q = some e → ∃ e', k'.pt q = some e' ∧ e'.obj = e.obj ∧ e'.idx = e.idx ∧
    e'.shared = e.shared ∧ e'.copy = e.copy ∧ (e.prot.r = true → e'.prot.r = true)
  unmapped : ∀ q, k.pt q = none → k'.pt q = none
  fds : k'.fds = k.fds
  names : k'.names = k.names

theorem Tuned.refl (k : Kernel) : Tuned k k :=
  ⟨rfl, rfl, rfl, fun _ e h => ⟨e, h, rfl, rfl, rfl, rfl, id⟩, fun _ h => h, rfl, rfl⟩

theorem Tuned.of_pt {k k' : Kernel} {P N : Nat} (h : OnlyRange k k' P N) (hp : k'.pt = k.pt) :
    Tuned k k' :=
  ⟨h.page, h.data, h.size, fun _ e he => ⟨e, by rw [hp]; exact he, rfl, rfl, rfl, rfl, id⟩,
    h.unmapped, h.fds, h.names⟩

theorem Tuned.of_upd {k k' : Kernel} {P N : Nat} (h : OnlyRange k k' P N) {f : Pte → Pte}
    (hp : k'.pt = updPt k.pt P N f)
    (hf : ∀ e, (f e).obj = e.obj ∧ (f e).idx = e.idx ∧ (f e).shared = e.shared ∧
      (f e).copy = e.copy ∧ (e.prot.r = true → (f e).prot.r = true)) : Tuned k k' := by
  refine ⟨h.page, h.data, h.size, fun q e he => ?_, h.unmapped, h.fds, h.names⟩
  by_cases hq : P ≤ q ∧ q < P + N
  · exact ⟨f e, by rw [hp, updPt, if_pos hq, he]; rfl, hf e⟩
  · exact ⟨e, by rw [hp, updPt, if_neg hq]; exact he, rfl, rfl, rfl, rfl, id⟩

theorem Tuned.over {k k' : Kernel} (h : Tuned k k') {m o off sh} (v : k.Over m o off sh) :
    k'.Over m o off sh := by
  intro j hj
  obtain ⟨e, h1, h2, h3, h4, h5⟩ := v j hj
  obtain ⟨e', g1, g2, g3, g4, -, g6⟩ := h.pt _ e h1
  exact ⟨e', by rw [h.page]; exact g1, by rw [g2, h2], by rw [g3, h.page]; exact h3,
    by rw [g4, h4], g6 h5⟩

section
variable {tab : SysTable} {t : Target} {k0 : Kernel} {w w' : World}

theorem range_tuned (v : w.Inv t k0) {i off len : Nat} {op : Operation} (hl : off + len < t.lim)
    (sys : Nat → Nat → Kernel × Result Unit)
    (hs : ∀ P N, ∃ k' r, sys (P * w.k.page) (N * w.k.page) = (k', r) ∧ Tuned w.k k')
    (st : w.onMap i (fun m => rangeOp t w.k m off len op sys) = .ok w') :
    ∃ k', w' = w.run k' ∧ Tuned w.k k' := by
  unfold World.onMap at st
  cases hi : w.held i with
  | none => rw [hi] at st; injection st with st; exact ⟨w.k, st.symm, .refl _⟩
  | some h =>
    rw [hi] at st
    cases h with
    | ring r n => injection st with st; exact ⟨w.k, st.symm, .refl _⟩
    | inf r n => injection st with st; exact ⟨w.k, st.symm, .refl _⟩
    | map m =>
      obtain ⟨p, n, g⟩ := v.live i _ hi
      dsimp only at st
      by_cases hin : off + len ≤ m.len
      · rw [rangeOp_in v.wf g.pages hin] at st
        obtain ⟨k', r, e1, e2⟩ := hs (pg w.k (m.ptr + off)) (npg w.k (m.ptr + off) len)
        rw [e1] at st
        injection st with st
        exact ⟨k', st.symm, e2⟩
      · rw [rangeOp_out (by omega) hl] at st
        injection st with st
        exact ⟨w.k, st.symm, .refl _⟩

theorem protect_tuned (k : Kernel) (hp : 0 < k.page) (P N : Nat) :
    ∃ k' r, Unix.protect k (P * k.page) (N * k.page) .readWrite = (k', r) ∧ Tuned k k' := by
  obtain ⟨k', r, h1, -, h2, -, h3, h4⟩ := protect_fx k hp P N
  refine ⟨k', r, h1, ?_⟩
  by_cases hr : r = .ok ()
  · exact .of_upd h2 (h4 hr).1 (fun e => ⟨rfl, rfl, rfl, rfl, fun _ => rfl⟩)
  · exact .of_pt h2 (h3 hr)

/-- A call on a map, other than a store, `WillNotNeed` and dropping it. -/
theorem step_tuned (v : w.Inv t k0) {op : Op} (sane : op.Sane t w) {i : Nat} {m : MapMut}
    (hm : w.held i = some (.map m)) (ht : op.target = some i) (hd : op ≠ .drop i)
    (hs : ∀ idx b, op ≠ .set i idx b) (ha : ∀ a l, op ≠ .advise i a l .willNotNeed)
    (st : w.step tab t op = .ok w') : ∃ k', w' = w.run k' ∧ Tuned w.k k' := by
  have hu := v.wf.page_pos
  cases op with
  | drop j => injection ht with ht; subst ht; exact absurd rfl hd
  | set j idx b => injection ht with ht; subst ht; exact absurd rfl (hs idx b)
  | flush j off len mode =>
    refine range_tuned v sane (fun p l => Unix.flush w.k p l mode) (fun P N => ?_) st
    obtain ⟨k', r, h1, -, h2, h3, -⟩ := flush_fx w.k hu P N mode
    exact ⟨k', r, h1, .of_pt h2 h3⟩
  | advise j off len adv =>
    injection ht with ht; subst ht
    refine range_tuned v sane (fun p l => Unix.advise w.k p l adv) (fun P N => ?_) st
    obtain ⟨k', r, h1, -, h2, -, h3, -⟩ := advise_fx w.k hu P N adv
    exact ⟨k', r, h1, .of_pt h2 (h3 (.inr (fun hh => ha off len (by rw [hh]))))⟩
  | lock j off len =>
    refine range_tuned v sane (fun p l => Unix.lock w.k p l) (fun P N => ?_) st
    obtain ⟨k', r, h1, -, h2, -, h3, h4⟩ := mlock_fx w.k hu P N true .lock
    refine ⟨k', r, h1, ?_⟩
    by_cases hr : r = .ok ()
    · exact .of_upd h2 (h4 hr) (fun e => ⟨rfl, rfl, rfl, rfl, id⟩)
    · exact .of_pt h2 (h3 hr)
  | unlock j off len =>
    refine range_tuned v sane (fun p l => Unix.unlock w.k p l) (fun P N => ?_) st
    obtain ⟨k', r, h1, -, h2, -, h3, h4⟩ := mlock_fx w.k hu P N false .unlock
    refine ⟨k', r, h1, ?_⟩
    by_cases hr : r = .ok ()
    · exact .of_upd h2 (h4 hr) (fun e => ⟨rfl, rfl, rfl, rfl, id⟩)
    · exact .of_pt h2 (h3 hr)
  | intoMapMut j =>
    injection ht with ht; subst ht
    obtain ⟨p, n, g⟩ := v.live j _ hm
    have hb := whole_bounds v.wf g.pages
    obtain ⟨k', r, h1, h2⟩ := protect_tuned w.k hu p n
    simp only [World.step, World.onMap, hm, Map.intoMapMut, hb, h1, bind, Except.bind, pure,
      Except.pure] at st
    refine ⟨k', ?_, h2⟩
    cases r <;> (injection st with st; exact st.symm)
  | intoMap j =>
    injection ht with ht; subst ht
    obtain ⟨p, n, g⟩ := v.live j _ hm
    have hb := whole_bounds v.wf g.pages
    obtain ⟨k', r, h1, h2⟩ := protect_tuned w.k hu p n
    simp only [World.step, World.onMap, hm, MapMut.intoMap, hb, h1, bind, Except.bind, pure,
      Except.pure] at st
    refine ⟨k', ?_, h2⟩
    cases r <;> (injection st with st; exact st.symm)
  | ringOp j op =>
    injection ht with ht; subst ht
    simp only [World.step, hm] at st
    injection st with st; exact ⟨w.k, st.symm, .refl _⟩
  | infOp j op =>
    injection ht with ht; subst ht
    simp only [World.step, hm] at st
    injection st with st; exact ⟨w.k, st.symm, .refl _⟩
  | infAll j bs =>
    injection ht with ht; subst ht
    simp only [World.step, hm] at st
    injection st with st; exact ⟨w.k, st.symm, .refl _⟩
  | _ => cases ht

/-- `WillNotNeed` on a map. -/
theorem willNotNeed_fx (v : w.Inv t k0) {i : Nat} {m : MapMut} (hm : w.held i = some (.map m))
    {a l : Nat} (hl : a + l < t.lim) :
    ∃ k' r, m.adviseRange t w.k a l .willNotNeed = .ok (k', r) ∧
      w.step tab t (.advise i a l .willNotNeed) = .ok (w.run k') ∧
      (r ≠ .ok () → Tuned w.k k') ∧
      (r = .ok () → k'.page = w.k.page ∧ k'.data = w.k.data ∧ k'.size = w.k.size ∧
        k'.fds = w.k.fds ∧ k'.names = w.k.names ∧
        ∀ q, k'.pt q = (w.k.pt q).map (fun e => open Classical in
          if OnPage w.k.page (m.ptr + a) l q then { e with copy := none } else e)) := by
  obtain ⟨p, n, g⟩ := v.live i _ hm
  have hu := v.wf.page_pos
  by_cases hin : a + l ≤ m.len
  · have hr := rangeOp_in (op := .advise) (sys := fun p l => Unix.advise w.k p l .willNotNeed) v.wf
      g.pages hin
    obtain ⟨-, -, -, -, enc⟩ := range_bounds v.wf g.pages hin
    obtain ⟨k', r, h1, -, h2, -, h3, h4⟩ := advise_fx w.k hu (pg w.k (m.ptr + a))
      (npg w.k (m.ptr + a) l) .willNotNeed
    rw [← adviseRange_eq] at hr
    refine ⟨k', r, by rw [hr, h1], ?_, fun hr => .of_pt h2 (h3 (.inl hr)), fun hr => ?_⟩
    · simp only [World.step, World.onMap, hm, hr, h1, bind, Except.bind, pure, Except.pure]
    · refine ⟨h2.page, h2.data, h2.size, h2.fds, h2.names, fun q => ?_⟩
      have hon : OnPage w.k.page (m.ptr + a) l q ↔
          pg w.k (m.ptr + a) ≤ q ∧ q < pg w.k (m.ptr + a) + npg w.k (m.ptr + a) l := by
        have e1 := enc.lower
        have e2 := enc.lower'
        have e3 := enc.upper
        have e4 := enc.upper'
        rw [← Nat.add_mul] at e3 e4
        generalize pg w.k (m.ptr + a) = P at *
        generalize npg w.k (m.ptr + a) l = N at *
        constructor
        · rintro ⟨b1, b2⟩
          constructor
          · apply Decidable.byContradiction
            intro hn
            have := Nat.mul_le_mul_right w.k.page (show q + 1 ≤ P by omega)
            omega
          · apply Decidable.byContradiction
            intro hn
            have := Nat.mul_le_mul_right w.k.page (show P + N ≤ q by omega)
            omega
        · rintro ⟨b1, b2⟩
          have c1 := Nat.mul_le_mul_right w.k.page b1
          have c2 := Nat.mul_le_mul_right w.k.page (show q + 1 ≤ P + N by omega)
          have c3 : (q + 1) * w.k.page = q * w.k.page + w.k.page := Nat.succ_mul _ _
          exact ⟨by omega, by omega⟩
      rw [h4 hr rfl, updPt]
      by_cases hq : OnPage w.k.page (m.ptr + a) l q
      · rw [if_pos (hon.mp hq)]; simp only [if_pos hq]
      · rw [if_neg (fun hh => hq (hon.mpr hh))]; simp only [if_neg hq, Option.map_id']
  · have hr := rangeOp_out (t := t) (k := w.k) (m := m) (op := .advise)
      (sys := fun p l => Unix.advise w.k p l .willNotNeed) (off := a) (len := l) (by omega) hl
    rw [← adviseRange_eq] at hr
    refine ⟨w.k, _, hr, ?_, fun _ => .refl _, fun h => by cases h⟩
    simp only [World.step, World.onMap, hm, hr, bind, Except.bind, pure, Except.pure]

/-- How a step changes what the program holds. -/
theorem step_shape {op : Op} (st : w.step tab t op = .ok w') :
    (∃ k, w' = w.run k) ∨ (∃ k h, w' = w.put k h) ∨
    ∃ j x y, w.held j = some x ∧ w'.next = w.next ∧
      (∀ i, w'.held i = if i = j then y else w.held i) ∧
      ∀ m, y ≠ some (.map m) := by
  have triv : ∀ {w'}, (Except.ok w : Exec World) = .ok w' → ∃ k, w' = w.run k :=
    fun h => by injection h with h; exact ⟨w.k, h.symm⟩
  have onmap : ∀ {α : Type} (i : Nat) (f : MapMut → Exec (Kernel × α)), w.onMap i f = .ok w' →
      ∃ k, w' = w.run k := by
    intro α i f h
    unfold World.onMap at h
    split at h
    · rename_i m _
      cases hf : f m with
      | error e => rw [hf] at h; cases h
      | ok x =>
        rw [hf] at h
        injection h with h
        exact ⟨x.1, h.symm⟩
    · exact triv h
  have dropped : ∀ {j x} {k : Kernel} {e : List MapMut}, w.held j = some x →
      w' = { w.upd k j none with empties := e } →
      ∃ j x y, w.held j = some x ∧ w'.next = w.next ∧
      (∀ i, w'.held i = if i = j then y else w.held i) ∧ ∀ m, y ≠ some (.map m) := by
    intro j x k e hx hw
    exact ⟨j, x, none, hx, by rw [hw]; rfl, fun i => by rw [hw]; rfl, fun _ h => by cases h⟩
  cases op with
  | mapIf o fd =>
    simp only [World.step, bind, Except.bind] at st
    split at st
    · cases st
    · split at st
      · injection st with st; exact .inr (.inl ⟨_, _, st.symm⟩)
      · injection st with st; exact .inl ⟨_, st.symm⟩
  | alloc o =>
    simp only [World.step, bind, Except.bind] at st
    split at st
    · cases st
    · split at st
      · injection st with st; exact .inr (.inl ⟨_, _, st.symm⟩)
      · injection st with st; exact .inl ⟨_, st.symm⟩
  | openIf o path =>
    simp only [World.step, bind, Except.bind] at st
    split at st
    · cases st
    · split at st
      · injection st with st; exact .inr (.inl ⟨_, _, st.symm⟩)
      · injection st with st; exact .inl ⟨_, st.symm⟩
  | newRing hint =>
    simp only [World.step, bind, Except.bind] at st
    split at st
    · cases st
    · split at st
      · injection st with st; exact .inr (.inl ⟨_, _, st.symm⟩)
      · injection st with st; exact .inl ⟨_, st.symm⟩
  | newInf hint =>
    simp only [World.step, bind, Except.bind] at st
    split at st
    · cases st
    · split at st
      · injection st with st; exact .inr (.inl ⟨_, _, st.symm⟩)
      · injection st with st; exact .inl ⟨_, st.symm⟩
  | close fd => injection st with st; exact .inl ⟨_, st.symm⟩
  | pwrite fd i b =>
    simp only [World.step] at st
    split at st
    · injection st with st; exact .inl ⟨_, st.symm⟩
    · exact .inl (triv st)
  | writeBack sel => injection st with st; exact .inl ⟨_, st.symm⟩
  | flush i off len mode => exact .inl (onmap _ _ st)
  | advise i off len adv => exact .inl (onmap _ _ st)
  | lock i off len => exact .inl (onmap _ _ st)
  | unlock i off len => exact .inl (onmap _ _ st)
  | intoMapMut i => exact .inl (onmap _ _ st)
  | intoMap i => exact .inl (onmap _ _ st)
  | set i idx b => exact .inl (onmap _ _ st)
  | drop i =>
    simp only [World.step] at st
    split at st
    · rename_i m hx
      cases hd : m.drop t w.k with
      | error e => rw [hd] at st; cases st
      | ok k =>
        rw [hd] at st
        injection st with st
        exact .inr (.inr (dropped hx st.symm))
    · rename_i r n hx
      cases hd : r.drop t w.k with
      | error e => rw [hd] at st; cases st
      | ok k =>
        rw [hd] at st
        injection st with st
        exact .inr (.inr (dropped (k := k) (e := w.empties) hx st.symm))
    · rename_i r n hx
      cases hd : r.drop t w.k with
      | error e => rw [hd] at st; cases st
      | ok k =>
        rw [hd] at st
        injection st with st
        exact .inr (.inr (dropped (k := k) (e := w.empties) hx st.symm))
    · exact .inl (triv st)
  | ringOp i op =>
    simp only [World.step] at st
    split at st
    · rename_i r n hx
      simp only [bind, Except.bind] at st
      split at st
      · cases st
      · split at st
        · cases st
        · injection st with st
          refine .inr (.inr ⟨i, _, _, hx, by rw [← st]; rfl, fun j => by rw [← st]; rfl, ?_⟩)
          intro m hm; cases hm
    · exact .inl (triv st)
  | infOp i op =>
    simp only [World.step] at st
    split at st
    · rename_i r n hx
      simp only [bind, Except.bind] at st
      split at st
      · cases st
      · split at st
        · cases st
        · injection st with st
          refine .inr (.inr ⟨i, _, _, hx, by rw [← st]; rfl, fun j => by rw [← st]; rfl, ?_⟩)
          intro m hm; cases hm
    · exact .inl (triv st)
  | infAll i bs =>
    simp only [World.step] at st
    split at st
    · rename_i r n hx
      simp only [bind, Except.bind] at st
      split at st
      · cases st
      · injection st with st
        refine .inr (.inr ⟨i, _, _, hx, by rw [← st]; rfl, fun j => by rw [← st]; rfl, ?_⟩)
        intro m hm; cases hm
    · exact .inl (triv st)

/-- Handle numbers are never given out twice: a map the program holds under an old number it held
before, and did not just drop. -/
theorem step_back {op : Op} (st : w.step tab t op = .ok w') {i : Nat}
    (hi : i < w.next) {m : MapMut} (hx : w'.held i = some (.map m)) :
    w.held i = some (.map m) ∧ op ≠ .drop i ∧ i < w'.next := by
  have key : w.held i = some (.map m) ∧ i < w'.next := by
    rcases step_shape st with ⟨k, rfl⟩ | ⟨k, h, rfl⟩ | ⟨j, x, y, h1, h2, h3, h4⟩
    · exact ⟨hx, hi⟩
    · have hne : i ≠ w.next := by omega
      simp only [World.put, if_neg hne] at hx
      exact ⟨hx, Nat.lt_succ_of_lt hi⟩
    · refine ⟨?_, by rw [h2]; exact hi⟩
      rw [h3] at hx
      by_cases hj : i = j
      · rw [if_pos hj] at hx; exact absurd hx (h4 m)
      · rw [if_neg hj] at hx; exact hx
  refine ⟨key.1, ?_, key.2⟩
  intro hd
  subst hd
  simp only [World.step, key.1, bind, Except.bind] at st
  split at st
  · cases st
  · injection st with st
    rw [← st] at hx
    simp only [World.upd, if_true] at hx
    cases hx

/-- A store through a map. -/
theorem set_fx {i idx : Nat} {b : Byte} {m : MapMut} (hm : w.held i = some (.map m))
    (st : w.step tab t (.set i idx b) = .ok w') :
    idx < m.len ∧ ∃ k', w' = w.run k' ∧ w.k.store (m.ptr + idx) b = .ok k' := by
  simp only [World.step, World.onMap, hm, bind, Except.bind, MapMut.set] at st
  by_cases hlt : idx < m.len
  · rw [if_pos hlt] at st
    cases hst : w.k.store (m.ptr + idx) b with
    | error e => rw [hst] at st; cases st
    | ok k' =>
      rw [hst] at st
      injection st with st
      exact ⟨hlt, k', st.symm, rfl⟩
  · rw [if_neg hlt] at st; cases st

theorem onPage_byte {u : Nat} (hu : 0 < u) {m : MapMut} {j : Nat} (hj : j < m.len) :
    (Handle.map m).OnPage u ((m.ptr + j) / u) := by
  have h1 := Nat.div_mul_le_self (m.ptr + j) u
  have h2 := Nat.lt_div_mul_add hu (a := m.ptr + j)
  refine ⟨?_, ?_⟩
  · show _ < m.ptr + m.len
    omega
  · show m.ptr < _
    rw [Nat.succ_mul]; omega

/-- The page-table entry of a byte of a held map survives every step but dropping the map; only its
protection (while staying readable), its lock state and its private copy may change. -/
theorem over_step (v : w.Inv t k0) {op : Op} (sane : op.Sane t w) (st : w.step tab t op = .ok w')
    {i : Nat} {m : MapMut} (hm : w.held i = some (.map m)) (hd : op ≠ .drop i) {o off sh}
    (ov : w.k.Over m o off sh) : w'.k.Over m o off sh := by
  have hu := v.wf.page_pos
  by_cases ht : op.target = some i
  · by_cases hs : ∃ idx b, op = .set i idx b
    · obtain ⟨idx, b, rfl⟩ := hs
      obtain ⟨-, k', rfl, hst⟩ := set_fx hm st
      obtain ⟨-, -, sf⟩ := store_effect (U := noPage) v.wf hst (S := fun _ => True) trivial
      intro j hj
      obtain ⟨e, h1, h2, h3, h4, h5⟩ := ov j hj
      rcases sf.pt ((m.ptr + j) / w.k.page) with g | ⟨e', c, g1, -, g3⟩
      · exact ⟨e, by show k'.pt (_ / k'.page) = _; rw [sf.page, g]; exact h1, h2,
          by show _ * k'.page + _ % k'.page = _; rw [sf.page]; exact h3, h4, h5⟩
      · rw [h1] at g1; injection g1 with g1; subst g1
        exact ⟨{ e with copy := some c }, by show k'.pt (_ / k'.page) = _; rw [sf.page, g3], h2,
          by show _ * k'.page + _ % k'.page = _; rw [sf.page]; exact h3, h4, h5⟩
    · by_cases ha : ∃ a l, op = .advise i a l .willNotNeed
      · obtain ⟨a, l, rfl⟩ := ha
        obtain ⟨k', r, -, f2, f3, f4⟩ := willNotNeed_fx (tab := tab) v hm (a := a) (l := l) sane
        rw [st] at f2
        injection f2 with f2
        subst f2
        by_cases hr : r = .ok ()
        · obtain ⟨g1, -, -, -, -, g2⟩ := f4 hr
          intro j hj
          obtain ⟨e, h1, h2, h3, h4, h5⟩ := ov j hj
          obtain ⟨e', he', hee⟩ : ∃ e', k'.pt ((m.ptr + j) / w.k.page) = some e' ∧
              (e' = { e with copy := none } ∨ e' = e) := by
            rw [g2, h1]
            refine ⟨_, rfl, ?_⟩
            split
            · exact .inl rfl
            · exact .inr rfl
          refine ⟨e', by show k'.pt (_ / k'.page) = _; rw [g1]; exact he', ?_, ?_, ?_, ?_⟩
          · rcases hee with h | h <;> rw [h] <;> exact h2
          · show _ * k'.page + _ % k'.page = _
            rw [g1]
            rcases hee with h | h <;> rw [h] <;> exact h3
          · rcases hee with h | h <;> rw [h] <;> exact h4
          · rcases hee with h | h <;> rw [h] <;> exact h5
        · exact (f3 hr).over ov
      · obtain ⟨k', rfl, tn⟩ := step_tuned v sane hm ht hd
          (fun idx b h => hs ⟨idx, b, h⟩) (fun a l h => ha ⟨a, l, h⟩) st
        exact tn.over ov
  · obtain ⟨S, fx, hS⟩ := (step_ok tab v sane st).fx
    obtain ⟨-, hS⟩ := hS i _ hm ht
    intro j hj
    obtain ⟨e, h1, h2, h3, h4, h5⟩ := ov j hj
    have hon := onPage_byte hu hj
    exact ⟨e, by rw [fx.page, fx.pt _ (hS _ hon)]; exact h1, h2, by rw [fx.page]; exact h3, h4, h5⟩

theorem Later.reach {P : Kernel → Prop} (h : Reach tab t k0 w) (l : Later tab t P w w') :
    Reach tab t k0 w' := by
  induction l with
  | refl => exact h
  | step _ sane st _ ih => exact .step ih sane st

/-- From one state to a later one, for a map held in the later one. -/
theorem over_later (wf : Wf t k0) {P : Kernel → Prop} (h : Reach tab t k0 w)
    (l : Later tab t P w w') {i : Nat} (hi : i < w.next) {m : MapMut} {o off sh}
    (ov : w.k.Over m o off sh) (hm : w'.held i = some (.map m)) :
    w'.k.Over m o off sh ∧ w.held i = some (.map m) ∧ i < w'.next := by
  have nx : ∀ {w1 : World}, Later tab t P w w1 → w1.held i = some (.map m) →
      w1.k.Over m o off sh ∧ w.held i = some (.map m) ∧ i < w1.next := by
    intro w1 l
    have mono : ∀ {w2 : World}, Later tab t P w w2 → i < w2.next := by
      intro w2 l
      induction l with
      | refl => exact hi
      | step _ _ st _ ih =>
        rcases step_shape st with ⟨k, rfl⟩ | ⟨k, h, rfl⟩ | ⟨j, x, y, h1, h2, h3, h4⟩
        · exact ih
        · exact Nat.lt_succ_of_lt ih
        · rw [h2]; exact ih
    induction l with
    | refl => exact fun hm => ⟨ov, hm, hi⟩
    | step before sane st _ ih =>
      intro hm
      obtain ⟨b1, b2, b3⟩ := step_back st (mono before) hm
      obtain ⟨i1, i2, -⟩ := ih b1
      exact ⟨over_step ((before.reach h).inv wf) sane st b1 b2 i1, i2, b3⟩
  exact nx l hm

/-- What a private page has for itself survives steps on other handles. -/
theorem copy_other (v : w.Inv t k0) {op : Op} (sane : op.Sane t w) (st : w.step tab t op = .ok w')
    {i : Nat} {x : Handle} (hx : w.held i = some x) (ht : op.target ≠ some i) {q : Nat}
    (hq : x.OnPage w.k.page q) {e : Pte} (he : w.k.pt q = some e) :
    w'.k.pt q = some e ∧ ∀ r, w'.k.at? e r = w.k.at? e r := by
  obtain ⟨S, fx, hS⟩ := (step_ok tab v sane st).fx
  obtain ⟨-, hS⟩ := hS i _ hx ht
  refine ⟨by rw [fx.pt _ (hS _ hq)]; exact he, fun r => ?_⟩
  unfold at?
  cases hcp : e.copy with
  | none => rfl
  | some c =>
    obtain ⟨x1, x2, x3⟩ := v.wf.excl _ e c he hcp
    have hid : Hid w.k S anyFd c := by
      refine ⟨(v.wf.objs _ e he).2 c hcp, fun d f _ => x2 d f, fun s hs => x3 s c hs rfl, ?_⟩
      intro q' e' hq' he'
      refine ⟨(x1 q' e' he').1, fun hc => ?_⟩
      rw [(x1 q' e' he').2 hc] at hq'
      exact hS _ hq hq'
    simp only [Option.map_some]
    rw [(fx.hid anyFd c (fun _ _ => trivial) hid).1]

/-- What the bytes of a private map are: the map's own (`ov`), or the object's. -/
def Kernel.Laid (k : Kernel) (m : MapMut) (ov : Nat → Option Byte) : Prop :=
  ∀ j, j < m.len → ∀ e, k.pt ((m.ptr + j) / k.page) = some e →
    k.at? e ((m.ptr + j) % k.page) = ov j

theorem Tuned.laid {k k' : Kernel} (h : Tuned k k') {m ov} (l : k.Laid m ov) : k'.Laid m ov := by
  intro j hj e' he'
  rw [h.page] at he' ⊢
  cases he : k.pt ((m.ptr + j) / k.page) with
  | none => rw [h.unmapped _ he] at he'; cases he'
  | some e =>
    obtain ⟨e1, g1, -, -, -, g5, -⟩ := h.pt _ e he
    rw [he'] at g1
    injection g1 with g1
    subst g1
    have := l j hj e he
    unfold at? at this ⊢
    rw [g5, h.data]; exact this

/-- A store to a private map. -/
theorem laid_store {k k' : Kernel} (w : Wf t k) {m : MapMut} {o off idx : Nat} {b : Byte}
    {ov : Nat → Option Byte} (hidx : idx < m.len) (hov : k.Over m o off false) (l : k.Laid m ov)
    (h : k.store (m.ptr + idx) b = .ok k') :
    k'.Laid m (fun j => if j = idx then some b
        else if (m.ptr + j) / k.page = (m.ptr + idx) / k.page then
          some ((ov j).getD (k.data o (off + j)))
        else ov j) := by
  have hu := w.page_pos
  obtain ⟨e, h1, h2, h3, h4, h5⟩ := hov idx hidx
  have split : ∀ a c : Nat, a / k.page = c / k.page → a % k.page = c % k.page → a = c := by
    intro a c d1 d2
    rw [← Nat.div_add_mod a k.page, ← Nat.div_add_mod c k.page, d1, d2]
  unfold Kernel.store at h
  rw [h1] at h
  dsimp only at h
  by_cases hb : (e.prot.w && k.backed e) = true
  · rw [if_pos hb, h4, if_neg (by decide)] at h
    intro j hj e' he'
    cases hc : e.copy with
    | some c =>
      rw [hc] at h
      injection h with h
      subst h
      have he' : k.pt ((m.ptr + j) / k.page) = some e' := he'
      have old := l j hj e' he'
      show (e'.copy.map fun c' => if c' = c ∧ (m.ptr + j) % k.page = (m.ptr + idx) % k.page then b
        else k.data c' ((m.ptr + j) % k.page)) = (if j = idx then some b
        else if (m.ptr + j) / k.page = (m.ptr + idx) / k.page then
          some ((ov j).getD (k.data o (off + j)))
        else ov j)
      by_cases hp : (m.ptr + j) / k.page = (m.ptr + idx) / k.page
      · rw [hp, h1] at he'
        injection he' with he'
        subst he'
        rw [hc, Option.map_some]
        unfold at? at old
        rw [hc, Option.map_some] at old
        by_cases hji : j = idx
        · subst hji; rw [if_pos ⟨rfl, rfl⟩, if_pos rfl]
        · rw [if_neg (fun hh => hji (by have := split _ _ hp hh.2; omega)), if_neg hji, if_pos hp, ← old]
          rfl
      · have hji : j ≠ idx := fun hh => hp (by rw [hh])
        rw [if_neg hji, if_neg hp, ← old]
        unfold at?
        cases hc' : e'.copy with
        | none => rfl
        | some c' =>
          have hne : c' ≠ c := by
            intro hh
            subst hh
            exact hp (((w.excl _ e c' h1 hc).1 _ e' he').2 hc')
          simp only [Option.map_some, if_neg (fun hh : c' = c ∧ _ => hne hh.1)]
    | none =>
      rw [hc] at h
      injection h with h
      subst h
      have he' : (if (m.ptr + j) / k.page = (m.ptr + idx) / k.page
        then some { e with copy := some k.fresh } else k.pt ((m.ptr + j) / k.page)) = some e' := he'
      show (e'.copy.map fun c' => if c' = k.fresh ∧ (m.ptr + j) % k.page = (m.ptr + idx) % k.page then b
        else if c' = k.fresh then k.data e.obj (e.idx * k.page + (m.ptr + j) % k.page) else
          k.data c' ((m.ptr + j) % k.page)) = (if j = idx then some b
        else if (m.ptr + j) / k.page = (m.ptr + idx) / k.page then
          some ((ov j).getD (k.data o (off + j)))
        else ov j)
      by_cases hp : (m.ptr + j) / k.page = (m.ptr + idx) / k.page
      · rw [if_pos hp] at he'
        injection he' with he'
        subst he'
        have old := l j hj e (by rw [hp]; exact h1)
        unfold at? at old
        rw [hc, Option.map_none] at old
        rw [show ({ e with copy := some k.fresh } : Pte).copy = some k.fresh from rfl,
          Option.map_some]
        by_cases hji : j = idx
        · subst hji; rw [if_pos ⟨rfl, rfl⟩, if_pos rfl]
        · rw [if_neg (fun hh => hji (by have := split _ _ hp hh.2; omega)), if_pos rfl, if_neg hji,
            if_pos hp, ← old, Option.getD_none]
          obtain ⟨e2, x1, x2, x3, -⟩ := hov j hj
          rw [hp, h1] at x1
          injection x1 with x1
          subst x1
          rw [x3, x2]
      · rw [if_neg hp] at he'
        have hji : j ≠ idx := fun hh => hp (by rw [hh])
        rw [if_neg hji, if_neg hp, ← l j hj e' he']
        unfold at?
        cases hc' : e'.copy with
        | none => rfl
        | some c' =>
          have := (w.objs _ e' he').2 c' hc'
          have hne : c' ≠ k.fresh := by omega
          simp only [Option.map_some, if_neg (fun hh : c' = k.fresh ∧ _ => hne hh.1), if_neg hne]
  · rw [if_neg hb] at h; cases h

/-- The bytes of a private map in the course of a program. -/
theorem Overlay.inv (wf : Wf t k0) {i : Nat} {m : MapMut} {o off} (h : Reach tab t k0 w)
    (hi : i < w.next) (hm : w.held i = some (.map m)) (hov : w.k.Over m o off false)
    (l0 : w.k.Laid m (fun _ => none)) {ov : Nat → Option Byte}
    (tr : Overlay tab t i m o off w w' ov) :
    Reach tab t k0 w' ∧ i < w'.next ∧ w'.held i = some (.map m) ∧ w'.k.Over m o off false ∧
      w'.k.Laid m ov := by
  induction tr with
  | made => exact ⟨h, hi, hm, hov, l0⟩
  | @write w1 w2 ov idx b before st ih =>
    obtain ⟨r1, i1, m1, o1, l1⟩ := ih
    have v := r1.inv wf
    have o2 := over_step v (op := .set i idx b) trivial st m1 (by intro h; cases h) o1
    obtain ⟨hlt, k', rfl, hst⟩ := set_fx m1 st
    exact ⟨.step (op := .set i idx b) r1 trivial st, i1, m1, o2, laid_store v.wf hlt o1 l1 hst⟩
  | @forget w1 k2 ov ov' a l before sane call dr kp ih =>
    obtain ⟨r1, i1, m1, o1, l1⟩ := ih
    have v := r1.inv wf
    obtain ⟨k', r, f1, f2, f3, f4⟩ := willNotNeed_fx (tab := tab) v m1 (a := a) (l := l) sane
    rw [call] at f1
    injection f1 with f1
    injection f1 with f1 f1'
    subst f1 f1'
    refine ⟨.step (op := .advise i a l .willNotNeed) r1 sane f2, i1, m1,
      over_step v (op := .advise i a l .willNotNeed) sane f2 m1 (by intro h; cases h) o1, ?_⟩
    obtain ⟨g1, g2, -, -, -, g3⟩ := f4 rfl
    intro j hj e' he'
    have he' : k2.pt ((m.ptr + j) / k2.page) = some e' := he'
    show k2.at? e' ((m.ptr + j) % k2.page) = _
    rw [g1] at he' ⊢
    rw [g3] at he'
    cases he : w1.k.pt ((m.ptr + j) / w1.k.page) with
    | none => rw [he] at he'; cases he'
    | some e =>
      rw [he] at he'
      injection he' with he'
      subst he'
      dsimp only
      by_cases hq : OnPage w1.k.page (m.ptr + a) l ((m.ptr + j) / w1.k.page)
      · rw [if_pos hq, dr j hq]; rfl
      · rw [if_neg hq, kp j hq, ← l1 j hj e he]
        unfold at?; rw [g2]
  | @refused w1 k2 err ov a l before sane call ih =>
    obtain ⟨r1, i1, m1, o1, l1⟩ := ih
    have v := r1.inv wf
    obtain ⟨k', r, f1, f2, f3, f4⟩ := willNotNeed_fx (tab := tab) v m1 (a := a) (l := l) sane
    rw [call] at f1
    injection f1 with f1
    injection f1 with f1 f1'
    subst f1 f1'
    refine ⟨.step (op := .advise i a l .willNotNeed) r1 sane f2, i1, m1,
      over_step v (op := .advise i a l .willNotNeed) sane f2 m1 (by intro h; cases h) o1, ?_⟩
    exact (f3 (by intro h; cases h)).laid l1
  | @other w1 w2 ov op before sane st held ns na _ ih =>
    obtain ⟨r1, i1, m1, o1, l1⟩ := ih
    have v := r1.inv wf
    obtain ⟨b1, b2, b3⟩ := step_back st i1 held
    refine ⟨.step r1 sane st, b3, held, over_step v sane st m1 b2 o1, ?_⟩
    by_cases ht : op.target = some i
    · obtain ⟨k', rfl, tn⟩ := step_tuned v sane m1 ht b2 ns na st
      exact tn.laid l1
    · intro j hj e' he'
      have hpg : w2.k.page = w1.k.page := by
        obtain ⟨S, fx, -⟩ := (step_ok tab v sane st).fx
        exact fx.page
      rw [hpg] at he' ⊢
      obtain ⟨e, h1, -⟩ := o1 j hj
      obtain ⟨c1, c2⟩ := copy_other v sane st m1 ht (onPage_byte v.wf.page_pos hj) h1
      rw [he'] at c1
      injection c1 with c1
      subst c1
      rw [c2]; exact l1 j hj e' h1

end
end Vmap
