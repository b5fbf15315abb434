import Verif.Spec.Settings
import Verif.Proofs.Cells
/- Helper lemmas: locked pages and access of a map in the course of a whole program. -/
namespace Vmap
open Kernel Spec

/-- What is known of the pages of a map. -/
def Kernel.Set? (k : Kernel) (m : MapMut) (a : Bool) (l : Nat → Prop) : Prop :=
  ∀ j, j < m.len → ∃ e, k.pt ((m.ptr + j) / k.page) = some e ∧ e.prot.w = a ∧
    (e.locked = true ↔ l j)

/-- The pages of a map are as before, apart from private copies. -/
structure SameSet (k k' : Kernel) (m : MapMut) : Prop where
  page : k'.page = k.page
  pt : ∀ j, j < m.len → ∀ e, k.pt ((m.ptr + j) / k.page) = some e →
    ∃ e', k'.pt ((m.ptr + j) / k.page) = some e' ∧ e'.prot = e.prot ∧ e'.locked = e.locked

theorem SameSet.set {k k' : Kernel} {m : MapMut} {a l} (s : SameSet k k' m) (h : k.Set? m a l) :
    k'.Set? m a l := by
  intro j hj
  obtain ⟨e, h1, h2, h3⟩ := h j hj
  obtain ⟨e', g1, g2, g3⟩ := s.pt j hj e h1
  exact ⟨e', by rw [s.page]; exact g1, by rw [g2]; exact h2, by rw [g3]; exact h3⟩

theorem SameSet.of_pt {k k' : Kernel} (m : MapMut) (h1 : k'.page = k.page) (h2 : k'.pt = k.pt) :
    SameSet k k' m :=
  ⟨h1, fun _ _ e he => ⟨e, by rw [h2]; exact he, rfl, rfl⟩⟩

theorem onPage_range {t : Target} {k : Kernel} (w : Wf t k) {m : MapMut} {p n : Nat}
    (g : Pages t k.page m.ptr m.len p n) {off len : Nat} (hin : off + len ≤ m.len) (q : Nat) :
    OnPage k.page (m.ptr + off) len q ↔
      pg k (m.ptr + off) ≤ q ∧ q < pg k (m.ptr + off) + npg k (m.ptr + off) len := by
  obtain ⟨-, -, -, -, enc⟩ := range_bounds w g hin
  have e1 := enc.lower
  have e2 := enc.lower'
  have e3 := enc.upper
  have e4 := enc.upper'
  rw [← Nat.add_mul] at e3 e4
  generalize pg k (m.ptr + off) = P at *
  generalize npg k (m.ptr + off) len = N at *
  constructor
  · rintro ⟨b1, b2⟩
    constructor
    · apply Decidable.byContradiction
      intro hn
      have := Nat.mul_le_mul_right k.page (show q + 1 ≤ P by omega)
      omega
    · apply Decidable.byContradiction
      intro hn
      have := Nat.mul_le_mul_right k.page (show P + N ≤ q by omega)
      omega
  · rintro ⟨b1, b2⟩
    have c1 := Nat.mul_le_mul_right k.page b1
    have c2 := Nat.mul_le_mul_right k.page (show q + 1 ≤ P + N by omega)
    have c3 : (q + 1) * k.page = q * k.page + k.page := Nat.succ_mul _ _
    exact ⟨by omega, by omega⟩

/-- What `lock_range` and `unlock_range` do. -/
structure LockFx (k k' : Kernel) (m : MapMut) (off len : Nat) (on : Bool) (r : Result Unit) : Prop where
  page : k'.page = k.page
  failed : r ≠ .ok () → k'.pt = k.pt
  done : r = .ok () → off + len ≤ m.len ∧ ∀ q e, k.pt q = some e → ∃ e', k'.pt q = some e' ∧
    e'.prot = e.prot ∧ (OnPage k.page (m.ptr + off) len q → e'.locked = on) ∧
    (¬ OnPage k.page (m.ptr + off) len q → e'.locked = e.locked)

section
variable {tab : SysTable} {t : Target} {k0 : Kernel} {w w' : World}

theorem lock_fx (v : w.Inv t k0) {i : Nat} {m : MapMut} (hm : w.held i = some (.map m))
    {off len : Nat} (hl : off + len < t.lim) (on : Bool) (op : Operation) :
    ∃ k' r, rangeOp t w.k m off len op (fun p l => wrapErr op (w.k.mlock p l on)) = .ok (k', r) ∧
      LockFx w.k k' m off len on r := by
  obtain ⟨p, n, g⟩ := v.live i _ hm
  by_cases hin : off + len ≤ m.len
  · obtain ⟨k', r, h1, -, h2, -, h3, h4⟩ := mlock_fx w.k v.wf.page_pos (pg w.k (m.ptr + off))
      (npg w.k (m.ptr + off) len) on op
    refine ⟨k', r, by rw [rangeOp_in v.wf g.pages hin, h1], h2.page, h3, fun hr => ⟨hin, ?_⟩⟩
    intro q e he
    have hon := onPage_range v.wf g.pages hin q
    rw [h4 hr, updPt]
    by_cases hq : OnPage w.k.page (m.ptr + off) len q
    · rw [if_pos (hon.mp hq), he]
      exact ⟨_, rfl, rfl, fun _ => rfl, fun hn => absurd hq hn⟩
    · rw [if_neg (fun hh => hq (hon.mpr hh)), he]
      exact ⟨_, rfl, rfl, fun hh => absurd hh hq, fun _ => rfl⟩
  · exact ⟨w.k, _, rangeOp_out (by omega) hl, rfl, fun _ => rfl, fun h => by cases h⟩

theorem lockRange_fx (v : w.Inv t k0) {i : Nat} {m : MapMut} (hm : w.held i = some (.map m))
    {off len : Nat} (hl : off + len < t.lim) {k' : Kernel} {r : Result Unit}
    (call : m.lockRange t w.k off len = .ok (k', r)) :
    w.step tab t (.lock i off len) = .ok (w.run k') ∧ LockFx w.k k' m off len true r := by
  obtain ⟨k1, r1, h1, h2⟩ := lock_fx v hm hl true .lock
  have h1 : m.lockRange t w.k off len = .ok (k1, r1) := h1
  rw [call] at h1
  obtain ⟨rfl, rfl⟩ := ok_pair h1
  refine ⟨?_, h2⟩
  simp only [World.step, World.onMap, hm, call, bind, Except.bind, pure, Except.pure]

theorem unlockRange_fx (v : w.Inv t k0) {i : Nat} {m : MapMut} (hm : w.held i = some (.map m))
    {off len : Nat} (hl : off + len < t.lim) {k' : Kernel} {r : Result Unit}
    (call : m.unlockRange t w.k off len = .ok (k', r)) :
    w.step tab t (.unlock i off len) = .ok (w.run k') ∧ LockFx w.k k' m off len false r := by
  obtain ⟨k1, r1, h1, h2⟩ := lock_fx v hm hl false .unlock
  have h1 : m.unlockRange t w.k off len = .ok (k1, r1) := h1
  rw [call] at h1
  obtain ⟨rfl, rfl⟩ := ok_pair h1
  refine ⟨?_, h2⟩
  simp only [World.step, World.onMap, hm, call, bind, Except.bind, pure, Except.pure]

/-- What `into_map_mut` and `into_map` do. -/
structure ProtFx (k k' : Kernel) (m : MapMut) (ok : Bool) : Prop where
  page : k'.page = k.page
  failed : ok = false → k'.pt = k.pt
  done : ok = true → ∀ q e, k.pt q = some e → ∃ e', k'.pt q = some e' ∧ e'.locked = e.locked ∧
    (OnPage k.page m.ptr m.len q → e'.prot.w = true)

theorem protect_prot (v : w.Inv t k0) {m : MapMut} {p n : Nat} (g : Pages t w.k.page m.ptr m.len p n)
    {k' : Kernel} {r : Result Unit}
    (call : Unix.protect w.k (p * w.k.page) (n * w.k.page) .readWrite = (k', r)) :
    ProtFx w.k k' m r.isOk := by
  obtain ⟨k1, r1, h1, -, h2, -, h3, h4⟩ := protect_fx w.k v.wf.page_pos p n
  rw [call] at h1
  injection h1 with a b
  subst a b
  refine ⟨h2.page, fun hr => h3 (fun hh => by rw [hh] at hr; cases hr), fun hr => ?_⟩
  have hr : r = .ok () := by cases r with
    | error e => cases hr
    | ok u => rfl
  intro q e he
  have hon := onPage_iff g q
  rw [(h4 hr).1, updPt]
  by_cases hq : OnPage w.k.page m.ptr m.len q
  · rw [if_pos (hon.mp hq), he]
    exact ⟨_, rfl, rfl, fun _ => rfl⟩
  · rw [if_neg (fun hh => hq (hon.mpr hh)), he]
    exact ⟨_, rfl, rfl, fun hh => absurd hh hq⟩

theorem intoMapMut_fx (v : w.Inv t k0) {i : Nat} {m : MapMut} (hm : w.held i = some (.map m))
    {k' : Kernel} {r} (call : (Map.mk m).intoMapMut t w.k = .ok (k', r)) :
    w.step tab t (.intoMapMut i) = .ok (w.run k') ∧ ProtFx w.k k' m r.isOk := by
  refine ⟨by simp only [World.step, World.onMap, hm, call, bind, Except.bind, pure, Except.pure], ?_⟩
  obtain ⟨p, n, g⟩ := v.live i _ hm
  have hb := whole_bounds v.wf g.pages
  cases hx : Unix.protect w.k (p * w.k.page) (n * w.k.page) .readWrite with
  | mk k1 r1 =>
    have := protect_prot v g.pages hx
    simp only [Map.intoMapMut, hb, hx, bind, Except.bind, pure, Except.pure] at call
    cases r1 <;> (obtain ⟨rfl, rfl⟩ := ok_pair call; exact this)

theorem intoMap_fx (v : w.Inv t k0) {i : Nat} {m : MapMut} (hm : w.held i = some (.map m))
    {k' : Kernel} {r} (call : m.intoMap t w.k = .ok (k', r)) :
    w.step tab t (.intoMap i) = .ok (w.run k') ∧ ProtFx w.k k' m r.isOk := by
  refine ⟨by simp only [World.step, World.onMap, hm, call, bind, Except.bind, pure, Except.pure], ?_⟩
  obtain ⟨p, n, g⟩ := v.live i _ hm
  have hb := whole_bounds v.wf g.pages
  cases hx : Unix.protect w.k (p * w.k.page) (n * w.k.page) .readWrite with
  | mk k1 r1 =>
    have := protect_prot v g.pages hx
    simp only [MapMut.intoMap, hb, hx, bind, Except.bind, pure, Except.pure] at call
    cases r1 <;> (obtain ⟨rfl, rfl⟩ := ok_pair call; exact this)

/-- A step of any other kind. -/
theorem sameSet_step (v : w.Inv t k0) {op : Op} (sane : op.Sane t w) (st : w.step tab t op = .ok w')
    {i : Nat} {m : MapMut} (hm : w.held i = some (.map m)) (hd : op ≠ .drop i)
    (h1 : ∀ off len, op ≠ .lock i off len) (h2 : ∀ off len, op ≠ .unlock i off len)
    (h3 : op ≠ .intoMapMut i) (h4 : op ≠ .intoMap i) : SameSet w.k w'.k m := by
  have hu := v.wf.page_pos
  have ring : ∀ {w2 : World}, (Except.ok w : Exec World) = .ok w2 → SameSet w.k w2.k m := by
    intro w2 h; injection h with h; subst h; exact .of_pt m rfl rfl
  by_cases ht : op.target = some i
  · have range : ∀ {off len : Nat} {o : Operation} (sys : Nat → Nat → Kernel × Result Unit),
        off + len < t.lim → w.onMap i (fun m => rangeOp t w.k m off len o sys) = .ok w' →
        (∀ P N, ∃ k' r, sys (P * w.k.page) (N * w.k.page) = (k', r) ∧ SameSet w.k k' m) →
        SameSet w.k w'.k m := by
      intro off len o sys hl st hs
      obtain ⟨p, n, g⟩ := v.live i _ hm
      unfold World.onMap at st
      rw [hm] at st
      dsimp only at st
      by_cases hin : off + len ≤ m.len
      · rw [rangeOp_in v.wf g.pages hin] at st
        obtain ⟨k', r, e1, e2⟩ := hs (pg w.k (m.ptr + off)) (npg w.k (m.ptr + off) len)
        rw [e1] at st
        injection st with st
        subst st
        exact e2
      · rw [rangeOp_out (by omega) hl] at st
        injection st with st
        subst st
        exact .of_pt m rfl rfl
    cases op with
    | drop j => injection ht with ht; subst ht; exact absurd rfl hd
    | lock j off len => injection ht with ht; subst ht; exact absurd rfl (h1 off len)
    | unlock j off len => injection ht with ht; subst ht; exact absurd rfl (h2 off len)
    | intoMapMut j => injection ht with ht; subst ht; exact absurd rfl h3
    | intoMap j => injection ht with ht; subst ht; exact absurd rfl h4
    | flush j off len mode =>
      injection ht with ht; subst ht
      refine range (fun p l => Unix.flush w.k p l mode) sane st (fun P N => ?_)
      obtain ⟨k', r, h1, -, h2, h3, -⟩ := flush_fx w.k hu P N mode
      exact ⟨k', r, h1, .of_pt m h2.page h3⟩
    | advise j off len adv =>
      injection ht with ht; subst ht
      refine range (fun p l => Unix.advise w.k p l adv) sane st (fun P N => ?_)
      obtain ⟨k', r, h1, -, h2, -, h3, h4⟩ := advise_fx w.k hu P N adv
      refine ⟨k', r, h1, ?_⟩
      by_cases hc : r = .ok () ∧ adv = .willNotNeed
      · refine ⟨h2.page, fun x hx e he => ?_⟩
        rw [h4 hc.1 hc.2, updPt]
        split
        · rw [he]; exact ⟨_, rfl, rfl, rfl⟩
        · exact ⟨e, he, rfl, rfl⟩
      · refine .of_pt m h2.page (h3 ?_)
        by_cases hr : r = .ok ()
        · exact .inr (fun hh => hc ⟨hr, hh⟩)
        · exact .inl hr
    | set j idx b =>
      injection ht with ht; subst ht
      obtain ⟨-, k', rfl, hst⟩ := set_fx hm st
      obtain ⟨-, -, sf⟩ := store_effect (U := noPage) v.wf hst (S := fun _ => True) trivial
      refine ⟨sf.page, fun x hx e he => ?_⟩
      rcases sf.pt ((m.ptr + x) / w.k.page) with g | ⟨e', c, g1, -, g3⟩
      · exact ⟨e, by show k'.pt _ = _; rw [g]; exact he, rfl, rfl⟩
      · rw [he] at g1; injection g1 with g1; subst g1
        exact ⟨_, g3, rfl, rfl⟩
    | ringOp j op =>
      injection ht with ht; subst ht
      simp only [World.step, hm] at st
      exact ring st
    | infOp j op =>
      injection ht with ht; subst ht
      simp only [World.step, hm] at st
      exact ring st
    | infAll j bs =>
      injection ht with ht; subst ht
      simp only [World.step, hm] at st
      exact ring st
    | _ => cases ht
  · obtain ⟨S, fx, hS⟩ := (step_ok tab v sane st).fx
    obtain ⟨-, hS⟩ := hS i _ hm ht
    refine ⟨fx.page, fun j hj e he => ⟨e, ?_, rfl, rfl⟩⟩
    rw [fx.pt _ (hS _ (onPage_byte hu hj))]; exact he

theorem LockFx.lock {k k' : Kernel} {m : MapMut} {off len : Nat} {r : Result Unit}
    (h : LockFx k k' m off len true r) {a l} (s : k.Set? m a l) :
    k'.Set? m a (fun j =>
      l j ∨ (r = .ok () ∧ OnPage k.page (m.ptr + off) len ((m.ptr + j) / k.page))) := by
  intro j hj
  obtain ⟨e, h1, h2, h3⟩ := s j hj
  rw [h.page]
  by_cases hr : r = .ok ()
  · obtain ⟨e', g1, g2, g3, g4⟩ := (h.done hr).2 _ e h1
    refine ⟨e', g1, by rw [g2]; exact h2, ?_⟩
    by_cases hq : OnPage k.page (m.ptr + off) len ((m.ptr + j) / k.page)
    · rw [g3 hq]; exact ⟨fun _ => .inr ⟨hr, hq⟩, fun _ => rfl⟩
    · rw [g4 hq, h3]; exact ⟨.inl, fun hh => hh.elim id (fun x => absurd x.2 hq)⟩
  · exact ⟨e, by rw [h.failed hr]; exact h1, h2,
      h3.trans ⟨.inl, fun hh => hh.elim id (fun x => absurd x.1 hr)⟩⟩

theorem LockFx.unlock {k k' : Kernel} {m : MapMut} {off len : Nat} {r : Result Unit}
    (h : LockFx k k' m off len false r) {a l} (s : k.Set? m a l) :
    k'.Set? m a (fun j =>
      l j ∧ ¬ (r = .ok () ∧ OnPage k.page (m.ptr + off) len ((m.ptr + j) / k.page))) := by
  intro j hj
  obtain ⟨e, h1, h2, h3⟩ := s j hj
  rw [h.page]
  by_cases hr : r = .ok ()
  · obtain ⟨e', g1, g2, g3, g4⟩ := (h.done hr).2 _ e h1
    refine ⟨e', g1, by rw [g2]; exact h2, ?_⟩
    by_cases hq : OnPage k.page (m.ptr + off) len ((m.ptr + j) / k.page)
    · rw [g3 hq]; exact ⟨fun x => (by cases x), fun x => absurd ⟨hr, hq⟩ x.2⟩
    · rw [g4 hq, h3]; exact ⟨fun x => ⟨x, fun y => hq y.2⟩, fun x => x.1⟩
  · exact ⟨e, by rw [h.failed hr]; exact h1, h2,
      h3.trans ⟨fun x => ⟨x, fun y => hr y.1⟩, fun x => x.1⟩⟩

theorem ProtFx.set {k k' : Kernel} (hu : 0 < k.page) {m : MapMut} {ok : Bool} (h : ProtFx k k' m ok)
    {a l} (s : k.Set? m a l) : k'.Set? m (a || ok) l := by
  intro j hj
  obtain ⟨e, h1, h2, h3⟩ := s j hj
  rw [h.page]
  cases ok with
  | false => exact ⟨e, by rw [h.failed rfl]; exact h1, by rw [Bool.or_false]; exact h2, h3⟩
  | true =>
    obtain ⟨e', g1, g2, g3⟩ := h.done rfl _ e h1
    exact ⟨e', g1, by rw [Bool.or_true]; exact g3 (onPage_byte hu hj), by rw [g2]; exact h3⟩

theorem Kernel.Created.set {k k' : Kernel} (hu : 0 < k.page) {m : MapMut} {o off sh mw prot p n}
    (hp : k'.page = k.page) (c : Created t k k' m.ptr m.len o off sh mw prot p n) :
    k'.Set? m prot.w (fun _ => False) := by
  intro j hj
  obtain ⟨a, b⟩ := (onPage_iff c.pages _).mp (onPage_byte (u := k.page) hu hj)
  obtain ⟨e, x1, -, x3, -, x5⟩ := c.mapped _ a b
  exact ⟨e, by rw [hp]; exact x1, by rw [x5], by rw [x3]; exact ⟨fun h => (by cases h), False.elim⟩⟩

theorem writes_prot (p : Protect) : (protOf p).w = writes p := by cases p <;> rfl

theorem NewMap.inv (wf : Wf t k0) {i m p} (h : NewMap tab t k0 w i m p) :
    Reach tab t k0 w ∧ i < w.next ∧ w.held i = some (.map m) ∧
      w.k.Set? m (writes p) (fun _ => False) := by
  cases h with
  | @map w0 opts fd k1 m reach fits call =>
    have st : w0.step tab t (.mapIf opts fd) = .ok (w0.put k1 (.map m)) := by
      simp only [World.step, call, bind, Except.bind, pure, Except.pure]
    have v := reach.inv wf
    obtain ⟨k', r, h1, g⟩ := mapIf_keeps tab v.wf fits (fd := fd)
    rw [call] at h1
    obtain ⟨rfl, rfl⟩ := ok_pair h1
    obtain ⟨f', p, n, hf', -, -, -, c⟩ := g.made m rfl
    refine ⟨.step (op := .mapIf opts fd) reach fits st, Nat.lt_succ_self _, if_pos rfl, ?_⟩
    rw [← writes_prot]
    exact c.set v.wf.page_pos g.page
  | @«open» w0 opts path fd k1 m reach fits call =>
    have st : w0.step tab t (.openIf opts path) = .ok (w0.put k1 (.map m)) := by
      simp only [World.step, call, bind, Except.bind, pure, Except.pure]
    have v := reach.inv wf
    refine ⟨.step (op := .openIf opts path) reach fits st, Nat.lt_succ_self _, if_pos rfl, ?_⟩
    have ho := open_outcome tab w0.k opts.openOptions path
    generalize hx : opts.openOptions.open tab w0.k path = x at ho
    obtain ⟨k2, r2⟩ := x
    simp only at ho
    have w2 := ho.wf v.wf
    cases r2 with
    | error e =>
      simp only [Options.openIf, hx, pure, Except.pure] at call
      injection call with call; injection call with _ call; cases call
    | ok fd' =>
      obtain ⟨k', r, h1, g⟩ := mapIf_keeps tab w2 fits (fd := fd')
      simp only [Options.openIf, hx, h1, bind, Except.bind, pure, Except.pure] at call
      cases r with
      | error e => injection call with call; injection call with _ call; cases call
      | ok x =>
        injection call with call
        injection call with c1 c2
        injection c2 with c2
        injection c2 with c2 c3
        subst c1 c2 c3
        obtain ⟨f', p, n, hf', -, -, -, c⟩ := g.made m rfl
        rw [← writes_prot]
        exact c.set w2.page_pos g.page
  | @alloc w0 opts k1 m reach sane call =>
    have st : w0.step tab t (.alloc opts) = .ok (w0.put k1 (.map m)) := by
      simp only [World.step, call, bind, Except.bind, pure, Except.pure]
    have v := reach.inv wf
    refine ⟨.step (op := .alloc opts) reach sane st, Nat.lt_succ_self _, if_pos rfl, ?_⟩
    obtain ⟨len, -, hc, -⟩ := alloc_cases v.wf opts sane
    rcases hc with ⟨e, he⟩ | ⟨p, k2, -, -, hne, hfit, hk, wf', cr, he⟩
    · rw [call] at he
      injection he with he
      injection he with h1 h2
      cases h2
    · rw [call] at he
      injection he with he
      injection he with h1 h2
      injection h2 with h2
      subst h1
      subst h2
      rw [← writes_prot]
      exact Created.set (m := ⟨p * w0.k.page + opts.offset % w0.k.page, len⟩) v.wf.page_pos
        (by show k1.page = _; rw [hk]; rfl) cr

theorem Settings.inv (wf : Wf t k0) {i m p} (h : NewMap tab t k0 w i m p) {a l}
    (tr : Settings tab t i m p w w' a l) :
    Reach tab t k0 w' ∧ i < w'.next ∧ w'.held i = some (.map m) ∧ w'.k.Set? m a l := by
  induction tr with
  | made => exact h.inv wf
  | @lock w1 k2 r a l off len before sane call ih =>
    obtain ⟨r1, i1, m1, s1⟩ := ih
    obtain ⟨st, fx⟩ := lockRange_fx (tab := tab) (r1.inv wf) m1 sane call
    exact ⟨.step (op := .lock i off len) r1 sane st, i1, m1, fx.lock s1⟩
  | @unlock w1 k2 r a l off len before sane call ih =>
    obtain ⟨r1, i1, m1, s1⟩ := ih
    obtain ⟨st, fx⟩ := unlockRange_fx (tab := tab) (r1.inv wf) m1 sane call
    exact ⟨.step (op := .unlock i off len) r1 sane st, i1, m1, fx.unlock s1⟩
  | intoMapMut before call ih =>
    obtain ⟨r1, i1, m1, s1⟩ := ih
    obtain ⟨st, fx⟩ := intoMapMut_fx (tab := tab) (r1.inv wf) m1 call
    exact ⟨.step (op := .intoMapMut i) r1 trivial st, i1, m1, fx.set (r1.inv wf).wf.page_pos s1⟩
  | intoMap before call ih =>
    obtain ⟨r1, i1, m1, s1⟩ := ih
    obtain ⟨st, fx⟩ := intoMap_fx (tab := tab) (r1.inv wf) m1 call
    exact ⟨.step (op := .intoMap i) r1 trivial st, i1, m1, fx.set (r1.inv wf).wf.page_pos s1⟩
  | other before sane st held h1 h2 h3 h4 ih =>
    obtain ⟨r1, i1, m1, s1⟩ := ih
    obtain ⟨b1, b2, b3⟩ := step_back st i1 held
    exact ⟨.step r1 sane st, b3, held, (sameSet_step (r1.inv wf) sane st m1 b2 h1 h2 h3 h4).set s1⟩

/-- A locked page stays locked, except by `unlock_range`. -/
theorem locked_step (v : w.Inv t k0) {op : Op} (sane : op.Sane t w) (st : w.step tab t op = .ok w')
    {i : Nat} {m : MapMut} (hm : w.held i = some (.map m)) (hd : op ≠ .drop i) {j : Nat}
    (hj : j < m.len)
    (hun : ∀ a l, op = .unlock i a l → ¬ OnPage w.k.page (m.ptr + a) l ((m.ptr + j) / w.k.page))
    (h : Locked w.k (m.ptr + j)) : Locked w'.k (m.ptr + j) := by
  obtain ⟨e, h1, h2⟩ := h
  by_cases c1 : ∃ off len, op = .lock i off len
  · obtain ⟨off, len, rfl⟩ := c1
    obtain ⟨k', r, c, -⟩ := lock_fx v hm (off := off) (len := len) sane true .lock
    obtain ⟨st', fx⟩ := lockRange_fx (tab := tab) v hm sane c
    rw [st] at st'
    injection st' with st'
    subst st'
    by_cases hr : r = .ok ()
    · obtain ⟨e', g1, -, g3, g4⟩ := (fx.done hr).2 _ e h1
      refine ⟨e', by show k'.pt (_ / k'.page) = _; rw [fx.page]; exact g1, ?_⟩
      by_cases hq : OnPage w.k.page (m.ptr + off) len ((m.ptr + j) / w.k.page)
      · exact g3 hq
      · rw [g4 hq]; exact h2
    · exact ⟨e, by show k'.pt (_ / k'.page) = _; rw [fx.page, fx.failed hr]; exact h1, h2⟩
  by_cases c2 : ∃ off len, op = .unlock i off len
  · obtain ⟨off, len, rfl⟩ := c2
    obtain ⟨k', r, c, -⟩ := lock_fx v hm (off := off) (len := len) sane false .unlock
    obtain ⟨st', fx⟩ := unlockRange_fx (tab := tab) v hm sane c
    rw [st] at st'
    injection st' with st'
    subst st'
    by_cases hr : r = .ok ()
    · obtain ⟨e', g1, -, -, g4⟩ := (fx.done hr).2 _ e h1
      exact ⟨e', by show k'.pt (_ / k'.page) = _; rw [fx.page]; exact g1,
        by rw [g4 (hun off len rfl)]; exact h2⟩
    · exact ⟨e, by show k'.pt (_ / k'.page) = _; rw [fx.page, fx.failed hr]; exact h1, h2⟩
  have prot : ∀ {k' ok}, ProtFx w.k k' m ok → Locked k' (m.ptr + j) := by
    intro k' ok fx
    cases ok with
    | false => exact ⟨e, by rw [fx.page, fx.failed rfl]; exact h1, h2⟩
    | true =>
      obtain ⟨e', g1, g2, -⟩ := fx.done rfl _ e h1
      exact ⟨e', by rw [fx.page]; exact g1, by rw [g2]; exact h2⟩
  by_cases c3 : op = .intoMapMut i
  · subst c3
    cases c : (Map.mk m).intoMapMut t w.k with
    | error f => simp only [World.step, World.onMap, hm, c, bind, Except.bind] at st; cases st
    | ok x =>
      obtain ⟨k', r⟩ := x
      obtain ⟨st', fx⟩ := intoMapMut_fx (tab := tab) v hm c
      rw [st] at st'
      injection st' with st'
      subst st'
      exact prot fx
  by_cases c4 : op = .intoMap i
  · subst c4
    cases c : m.intoMap t w.k with
    | error f => simp only [World.step, World.onMap, hm, c, bind, Except.bind] at st; cases st
    | ok x =>
      obtain ⟨k', r⟩ := x
      obtain ⟨st', fx⟩ := intoMap_fx (tab := tab) v hm c
      rw [st] at st'
      injection st' with st'
      subst st'
      exact prot fx
  have s := sameSet_step v sane st hm hd (fun a l h => c1 ⟨a, l, h⟩) (fun a l h => c2 ⟨a, l, h⟩) c3 c4
  obtain ⟨e', g1, -, g3⟩ := s.pt j hj e h1
  exact ⟨e', by rw [s.page]; exact g1, by rw [g3]; exact h2⟩

end
end Vmap
