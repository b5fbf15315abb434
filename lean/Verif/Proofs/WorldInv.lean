import Verif.Proofs.World
/- Helper lemmas: the invariant of whole programs. -/
namespace Vmap
open Kernel Spec

/-- What holds in every state that a program started in `k0` can reach. -/
structure World.Inv (t : Target) (k0 : Kernel) (w : World) : Prop where
  wf : Wf t w.k
  page : w.k.page = k0.page
  unused : ∀ i, w.next ≤ i → w.held i = none
  live : ∀ i h, w.held i = some h → h.Live t w.k
  sep : ∀ i j hi hj, i ≠ j → w.held i = some hi → w.held j = some hj →
    ∀ q, hi.OnPage k0.page q → ¬ hj.OnPage k0.page q
  free : ∀ i h, w.held i = some h → ∀ q, h.OnPage k0.page q → k0.pt q = none
  gone : ∀ m, m ∈ w.empties → ∀ q, (Handle.map m).OnPage k0.page q → k0.pt q = none
  kept : ∀ m, m ∈ w.empties → ∀ q, (Handle.map m).OnPage k0.page q → ∃ e, w.k.pt q = some e
  left : ∀ m, m ∈ w.empties → ∀ i h, w.held i = some h → ∀ q, h.OnPage k0.page q →
    ¬ (Handle.map m).OnPage k0.page q
  empty : ∀ m, m ∈ w.empties → m.len = 0 ∧ ∃ q, (Handle.map m).OnPage k0.page q
  once : w.empties.Pairwise (fun a b => ∀ q, (Handle.map a).OnPage k0.page q →
    ¬ (Handle.map b).OnPage k0.page q)
  rest : ∀ q, (∀ i h, w.held i = some h → ¬ h.OnPage k0.page q) →
    (∀ m, m ∈ w.empties → ¬ (Handle.map m).OnPage k0.page q) → w.k.pt q = k0.pt q

namespace World.Inv
variable {t : Target} {k0 : Kernel} {w : World} {U : Nat → Prop}

theorem start (h : Wf t k0) : Inv t k0 (World.start k0) where
  wf := h
  page := rfl
  unused := fun _ _ => rfl
  live := fun _ _ h => by cases h
  sep := fun _ _ _ _ _ h => by cases h
  free := fun _ _ h => by cases h
  gone := fun _ h => by cases h
  kept := fun _ h => by cases h
  left := fun _ h => by cases h
  empty := fun _ h => by cases h
  once := .nil
  rest := fun _ _ _ => rfl

/-- A step on handle `i` that changes nothing outside its pages. -/
theorem change (v : Inv t k0 w) {i : Nat} {h h' : Handle} {k' : Kernel} (hi : w.held i = some h)
    (hb : h'.base = h.base) (hl : h'.bytes = h.bytes) (wf' : Wf t k')
    (fx : Effect w.k k' (h.OnPage w.k.page) U) (l : h'.Live t k') : Inv t k0 (w.upd k' i (some h')) := by
  have hon : ∀ q, h'.OnPage k0.page q ↔ h.OnPage k0.page q := by
    intro q; simp only [Handle.OnPage, hb, hl]
  rw [v.page] at fx
  have old : ∀ j x, (w.upd k' i (some h')).held j = some x →
      ∃ x0, w.held j = some x0 ∧ (∀ q, x.OnPage k0.page q ↔ x0.OnPage k0.page q) := by
    intro j x hx
    simp only [World.upd] at hx
    split at hx
    · rename_i hj
      injection hx with hx
      subst hx
      exact ⟨h, by rw [hj]; exact hi, hon⟩
    · exact ⟨x, hx, fun _ => Iff.rfl⟩
  constructor
  · exact wf'
  · exact fx.page.trans v.page
  · intro j hj
    have hne : j ≠ i := by
      intro h0
      have := v.unused j hj
      rw [h0, hi] at this; cases this
    show (if j = i then _ else _) = _
    rw [if_neg hne]; exact v.unused j hj
  · intro j x hx
    by_cases hj : j = i
    · subst hj
      simp only [World.upd, if_true] at hx
      injection hx with hx; subst hx; exact l
    · simp only [World.upd, if_neg hj] at hx
      exact (v.live j x hx).other v.wf wf' fx (by
        rw [v.page]; exact v.sep j i x h hj hx hi)
  · intro a b ha hb' hab h1 h2 q hq1 hq2
    obtain ⟨x, x1, x2⟩ := old a ha h1
    obtain ⟨y, y1, y2⟩ := old b hb' h2
    exact v.sep a b x y hab x1 y1 q ((x2 q).mp hq1) ((y2 q).mp hq2)
  · intro a ha h1 q hq
    obtain ⟨x, x1, x2⟩ := old a ha h1
    exact v.free a x x1 q ((x2 q).mp hq)
  · exact v.gone
  · intro m hm q hq
    show ∃ e, k'.pt q = some e
    rw [fx.pt q (fun hh => v.left m hm i h hi q hh hq)]
    exact v.kept m hm q hq
  · intro m hm a ha h1 q hq
    obtain ⟨x, x1, x2⟩ := old a ha h1
    exact v.left m hm a x x1 q ((x2 q).mp hq)
  · exact v.empty
  · exact v.once
  · intro q h1 h2
    have hq : ¬ h.OnPage k0.page q := by
      intro hh
      exact h1 i h' (by simp only [World.upd, if_true]) ((hon q).mpr hh)
    show k'.pt q = _
    rw [fx.pt q hq]
    refine v.rest q ?_ h2
    intro j x hx
    by_cases hj : j = i
    · subst hj
      rw [hi] at hx; injection hx with hx; subst hx; exact hq
    · exact h1 j x (by simp only [World.upd, if_neg hj]; exact hx)

theorem upd_self {i : Nat} {h : Handle} (hi : w.held i = some h) (k : Kernel) :
    w.upd k i (some h) = w.run k := by
  have : (fun j => if j = i then some h else w.held j) = w.held := by
    funext j
    split
    · rename_i hj; rw [hj, hi]
    · rfl
  simp only [World.upd, World.run, this]

/-- A step that changes only the pages of handle `i`. -/
theorem same (v : Inv t k0 w) {i : Nat} {h : Handle} {k' : Kernel} (hi : w.held i = some h)
    (wf' : Wf t k') (fx : Effect w.k k' (h.OnPage w.k.page) U) (l : h.Live t k') :
    Inv t k0 (w.run k') := by
  rw [← upd_self hi]; exact v.change hi rfl rfl wf' fx l

/-- A step that changes no page. -/
theorem none (v : Inv t k0 w) {k' : Kernel} (wf' : Wf t k') (fx : Effect w.k k' noPage U) :
    Inv t k0 (w.run k') where
  wf := wf'
  page := fx.page.trans v.page
  unused := v.unused
  live := fun i h hi => (v.live i h hi).other v.wf wf' fx (fun _ _ => id)
  sep := v.sep
  free := v.free
  gone := v.gone
  kept := fun m hm q hq => by
    show ∃ e, k'.pt q = some e
    rw [fx.pt q id]; exact v.kept m hm q hq
  left := v.left
  empty := v.empty
  once := v.once
  rest := fun q h1 h2 => by
    show k'.pt q = _
    rw [fx.pt q id]; exact v.rest q h1 h2

/-- A new map or ring. -/
theorem put (v : Inv t k0 w) {k' : Kernel} {h : Handle} (wf' : Wf t k')
    (fx : Effect w.k k' (h.OnPage w.k.page) U) (l : h.Live t k')
    (fr : ∀ q, h.OnPage w.k.page q → w.k.pt q = Option.none) : Inv t k0 (w.put k' h) := by
  rw [v.page] at fx fr
  have apart : ∀ i x, w.held i = some x → ∀ q, x.OnPage k0.page q → ¬ h.OnPage k0.page q := by
    intro i x hx q h1 h2
    obtain ⟨e, he⟩ := (v.live i x hx).mapped v.wf (by rw [v.page]; exact h1)
    rw [fr q h2] at he
    cases he
  have cs : ∀ j x, (w.put k' h).held j = some x →
      (j = w.next ∧ x = h) ∨ (j ≠ w.next ∧ w.held j = some x) := by
    intro j x hx
    simp only [World.put] at hx
    split at hx
    · rename_i hj
      injection hx with hx
      exact .inl ⟨hj, hx.symm⟩
    · rename_i hj
      exact .inr ⟨hj, hx⟩
  constructor
  · exact wf'
  · exact fx.page.trans v.page
  · intro j hj
    have hj' : w.next + 1 ≤ j := hj
    show (if j = w.next then _ else _) = _
    rw [if_neg (by omega)]
    exact v.unused j (by omega)
  · intro j x hx
    rcases cs j x hx with ⟨-, h2⟩ | ⟨-, h2⟩
    · subst h2; exact l
    · exact (v.live j x h2).other v.wf wf' fx (by rw [v.page]; exact apart j x h2)
  · intro a b ha hb hab h1 h2 q hq1 hq2
    rcases cs a ha h1 with ⟨a1, a2⟩ | ⟨a1, a2⟩
    · rcases cs b hb h2 with ⟨b1, b2⟩ | ⟨b1, b2⟩
      · omega
      · subst a2; exact apart b hb b2 q hq2 hq1
    · rcases cs b hb h2 with ⟨b1, b2⟩ | ⟨b1, b2⟩
      · subst b2; exact apart a ha a2 q hq1 hq2
      · exact v.sep a b ha hb hab a2 b2 q hq1 hq2
  · intro a ha h1 q hq
    rcases cs a ha h1 with ⟨a1, a2⟩ | ⟨a1, a2⟩
    · subst a2
      cases hk : k0.pt q with
      | none => rfl
      | some e =>
        have := v.rest q
          (fun i x hx hq' => by have := v.free i x hx q hq'; rw [hk] at this; cases this)
          (fun m hm hq' => by have := v.gone m hm q hq'; rw [hk] at this; cases this)
        rw [fr q hq, hk] at this
        cases this
    · exact v.free a ha a2 q hq
  · exact v.gone
  · intro m hm q hq
    obtain ⟨e, he⟩ := v.kept m hm q hq
    refine ⟨e, ?_⟩
    show k'.pt q = _
    rw [fx.pt q (fun hh => by rw [fr q hh] at he; cases he)]
    exact he
  · intro m hm a ha h1 q hq hq'
    rcases cs a ha h1 with ⟨a1, a2⟩ | ⟨a1, a2⟩
    · subst a2
      obtain ⟨e, he⟩ := v.kept m hm q hq'
      rw [fr q hq] at he; cases he
    · exact v.left m hm a ha a2 q hq hq'
  · exact v.empty
  · exact v.once
  · intro q h1 h2
    have hq : ¬ h.OnPage k0.page q := h1 w.next h (by simp only [World.put, if_true])
    show k'.pt q = _
    rw [fx.pt q hq]
    refine v.rest q ?_ h2
    intro i x hx
    apply h1 i x
    have : i ≠ w.next := by
      intro hi
      rw [v.unused i (by omega)] at hx; cases hx
    simp only [World.put, if_neg this]; exact hx

/-- A handle goes, and its pages with it. -/
theorem drop (v : Inv t k0 w) {i : Nat} {h : Handle} {k' : Kernel} (hi : w.held i = some h)
    (wf' : Wf t k') (fx : Effect w.k k' (h.OnPage w.k.page) U)
    (gn : ∀ q, h.OnPage w.k.page q → k'.pt q = Option.none) :
    Inv t k0 (w.upd k' i Option.none) := by
  rw [v.page] at fx gn
  have cs : ∀ j x, (w.upd k' i Option.none).held j = some x → j ≠ i ∧ w.held j = some x := by
    intro j x hx
    simp only [World.upd] at hx
    split at hx
    · cases hx
    · rename_i hj; exact ⟨hj, hx⟩
  constructor
  · exact wf'
  · exact fx.page.trans v.page
  · intro j hj
    show (if j = i then _ else _) = _
    split
    · rfl
    · exact v.unused j hj
  · intro j x hx
    obtain ⟨h1, h2⟩ := cs j x hx
    exact (v.live j x h2).other v.wf wf' fx (by rw [v.page]; exact v.sep j i x h h1 h2 hi)
  · intro a b ha hb hab h1 h2
    exact v.sep a b ha hb hab (cs a ha h1).2 (cs b hb h2).2
  · intro a ha h1
    exact v.free a ha (cs a ha h1).2
  · exact v.gone
  · intro m hm q hq
    show ∃ e, k'.pt q = some e
    rw [fx.pt q (fun hh => v.left m hm i h hi q hh hq)]
    exact v.kept m hm q hq
  · intro m hm a ha h1
    exact v.left m hm a ha (cs a ha h1).2
  · exact v.empty
  · exact v.once
  · intro q h1 h2
    show k'.pt q = _
    by_cases hq : h.OnPage k0.page q
    · rw [gn q hq, v.free i h hi q hq]
    · rw [fx.pt q hq]
      refine v.rest q ?_ h2
      intro j x hx
      by_cases hj : j = i
      · subst hj
        rw [hi] at hx; injection hx with hx; subst hx; exact hq
      · exact h1 j x (by simp only [World.upd, if_neg hj]; exact hx)

/-- A handle of an empty map goes, and its page stays. -/
theorem leak (v : Inv t k0 w) {i : Nat} {m : MapMut} (hi : w.held i = some (.map m))
    (hz : m.len = 0) :
    Inv t k0 { (w.upd w.k i Option.none) with empties := m :: w.empties } := by
  have cs : ∀ j x, (w.upd w.k i Option.none).held j = some x → j ≠ i ∧ w.held j = some x := by
    intro j x hx
    simp only [World.upd] at hx
    split at hx
    · cases hx
    · rename_i hj; exact ⟨hj, hx⟩
  constructor
  · exact v.wf
  · exact v.page
  · intro j hj
    show (if j = i then _ else _) = _
    split
    · rfl
    · exact v.unused j hj
  · intro j x hx; exact v.live j x (cs j x hx).2
  · intro a b ha hb hab h1 h2
    exact v.sep a b ha hb hab (cs a ha h1).2 (cs b hb h2).2
  · intro a ha h1
    exact v.free a ha (cs a ha h1).2
  · intro m' hm'
    rcases List.mem_cons.mp hm' with h | h
    · subst h; exact v.free i _ hi
    · exact v.gone m' h
  · intro m' hm' q hq
    rcases List.mem_cons.mp hm' with h | h
    · subst h; exact (v.live i _ hi).mapped v.wf (by rw [v.page]; exact hq)
    · exact v.kept m' h q hq
  · intro m' hm' a ha h1
    rcases List.mem_cons.mp hm' with h | h
    · subst h; exact v.sep a i ha _ (cs a ha h1).1 (cs a ha h1).2 hi
    · exact v.left m' h a ha (cs a ha h1).2
  · intro m' hm'
    rcases List.mem_cons.mp hm' with h | h
    · subst h
      obtain ⟨p, n, g⟩ := v.live i _ hi
      refine ⟨hz, p, ?_⟩
      have := (onPage_iff g.pages p).mpr ⟨Nat.le_refl _, by have := g.pages.n_pos; omega⟩
      rw [v.page] at this; exact this
    · exact v.empty m' h
  · exact .cons (fun m' h q hq => v.left m' h i _ hi q hq) v.once
  · intro q h1 h2
    refine v.rest q ?_ (fun m' hm' => h2 m' (List.mem_cons_of_mem _ hm'))
    intro j x hx
    by_cases hj : j = i
    · subst hj
      rw [hi] at hx; injection hx with hx; subst hx
      exact h2 m List.mem_cons_self
    · exact h1 j x (by simp only [World.upd, if_neg hj]; exact hx)

end World.Inv
end Vmap
