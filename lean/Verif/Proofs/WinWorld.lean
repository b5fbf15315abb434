import Verif.Spec.WinWorld
import Verif.Spec.BigFile
import Verif.Props.Platform
/- Helper lemmas about whole programs on Windows. -/
namespace Vmap
open Spec

/-! ### Views -/

/-- Two views that begin at the same address are the same. -/
theorem _root_.Vmap.Spec.WinLaid.base_inj {t : Target} {s : Vmap.Win} (l : WinLaid t s) {x y : WinView} (hx : x ∈ s.views)
    (hy : y ∈ s.views) (h : x.base = y.base) : x = y := by
  have h1 := (l.inside x hx).1
  have h2 := (l.inside y hy).1
  obtain ⟨a, b, ha, -⟩ := l.sizes
  have hpos : 0 < s.page := by rw [ha]; exact Nat.two_pow_pos a
  have r1 := s.roundPage_le hpos x.len
  have r2 := s.roundPage_le hpos y.len
  have hap := l.apart
  generalize s.views = vs at *
  induction vs with
  | nil => cases hx
  | cons v vs ih =>
    rw [List.pairwise_cons] at hap
    rcases List.mem_cons.mp hx with rfl | hx'
    · rcases List.mem_cons.mp hy with rfl | hy'
      · rfl
      · have := hap.1 y hy'
        omega
    · rcases List.mem_cons.mp hy with rfl | hy'
      · have := hap.1 x hx'
        omega
      · exact ih hx' hy' hap.2

/-- Two views that share an address are the same. -/
theorem _root_.Vmap.Spec.WinLaid.addr_inj {t : Target} {s : Vmap.Win} (l : WinLaid t s) {x y : WinView} (hx : x ∈ s.views)
    (hy : y ∈ s.views) {a : Nat} (h : x.base ≤ a ∧ a < x.base + x.len)
    (h' : y.base ≤ a ∧ a < y.base + y.len) : x = y := by
  obtain ⟨p, b, ha, -⟩ := l.sizes
  have hpos : 0 < s.page := by rw [ha]; exact Nat.two_pow_pos p
  have r1 := s.roundPage_le hpos x.len
  have r2 := s.roundPage_le hpos y.len
  have hap := l.apart
  generalize s.views = vs at *
  induction vs with
  | nil => cases hx
  | cons v vs ih =>
    rw [List.pairwise_cons] at hap
    rcases List.mem_cons.mp hx with rfl | hx'
    · rcases List.mem_cons.mp hy with rfl | hy'
      · rfl
      · have := hap.1 y hy'
        omega
    · rcases List.mem_cons.mp hy with rfl | hy'
      · have := hap.1 x hx'
        omega
      · exact ih hx' hy' hap.2

/-- What an address inside a view shows. -/
theorem _root_.Vmap.Spec.WinLaid.sees {t : Target} {s : Vmap.Win} (l : WinLaid t s) {v : WinView} (hv : v ∈ s.views)
    {a : Nat} (h : v.base ≤ a ∧ a < v.base + v.len) :
    winSees s a = some (v.sec, v.off + (a - v.base), v.access) := by
  have hf : s.views.find? (fun v => decide (v.base ≤ a ∧ a < v.base + v.len)) = some v := by
    cases hc : s.views.find? (fun v => decide (v.base ≤ a ∧ a < v.base + v.len)) with
    | none =>
      rw [List.find?_eq_none] at hc
      exact absurd (decide_eq_true h) (hc v hv)
    | some x =>
      have h1 := List.find?_some hc
      simp only [decide_eq_true_eq] at h1
      rw [l.addr_inj (List.mem_of_find?_eq_some hc) hv h1 h]
  simp only [winSees, hf, Option.map_some]

/-- The view of a map is the one that begins with the map's granule. -/
theorem win_mapView_base {u : Nat} {m : MapMut} {x y : WinView} (hx : MapView u m x) (hy : MapView u m y) :
    x.base = y.base := by
  obtain ⟨⟨a, ha⟩, x1, x2, -⟩ := hx
  obtain ⟨⟨b, hb⟩, y1, y2, -⟩ := hy
  have h1 : u * a < u * (b + 1) := by rw [Nat.mul_add]; omega
  have h2 : u * b < u * (a + 1) := by rw [Nat.mul_add]; omega
  have := Nat.lt_of_mul_lt_mul_left h1
  have := Nat.lt_of_mul_lt_mul_left h2
  rw [ha, hb, show a = b by omega]

/-- The views of a handle are those by which it is there. -/
theorem win_owns_mem {t : Target} {s : Vmap.Win} (l : WinLaid t s) {u : Nat} {h : WinHandle}
    {vs : List WinView} (sub : ∀ v, v ∈ vs → v ∈ s.views) (there : WinHandle.There u vs h) {v : WinView}
    (hv : v ∈ s.views) (owns : WinHandle.Owns u h v) : v ∈ vs := by
  have ringCase : ∀ ptr len, (∃ v1 v2, v1 ∈ vs ∧ v2 ∈ vs ∧ v1.base = ptr ∧ v2.base = ptr + len ∧
      v1.len = len ∧ v2.len = len ∧ 0 < len ∧ v1.sec = v2.sec ∧ v1.off = 0 ∧ v2.off = 0 ∧
      v1.access = { read := true, write := true } ∧ v2.access = { read := true, write := true }) →
      RingView ptr len v → v ∈ vs := by
    rintro ptr len ⟨v1, v2, h1, h2, b1, b2, -⟩ ⟨hb | hb, -⟩
    · rw [l.base_inj hv (sub v1 h1) (by omega)]; exact h1
    · rw [l.base_inj hv (sub v2 h2) (by omega)]; exact h2
  cases h with
  | map m =>
    obtain ⟨x, hx, hm⟩ := there
    rw [l.base_inj hv (sub x hx) (win_mapView_base owns hm)]
    exact hx
  | ring r => exact ringCase _ _ there owns
  | inf r => exact ringCase _ _ there owns

theorem win_there_mono {u : Nat} {h : WinHandle} {vs vs' : List WinView} (keep : ∀ v, v ∈ vs →
    WinHandle.Owns u h v → v ∈ vs') (there : WinHandle.There u vs h) : WinHandle.There u vs' h := by
  cases h with
  | map m =>
    obtain ⟨x, hx, hm⟩ := there
    exact ⟨x, keep x hx hm, hm⟩
  | ring r =>
    obtain ⟨v1, v2, h1, h2, b1, b2, l1, l2, r0⟩ := there
    exact ⟨v1, v2, keep v1 h1 ⟨.inl b1, l1⟩, keep v2 h2 ⟨.inr b2, l2⟩, b1, b2, l1, l2, r0⟩
  | inf r =>
    obtain ⟨v1, v2, h1, h2, b1, b2, l1, l2, r0⟩ := there
    exact ⟨v1, v2, keep v1 h1 ⟨.inl b1, l1⟩, keep v2 h2 ⟨.inr b2, l2⟩, b1, b2, l1, l2, r0⟩

theorem win_same_owns {u : Nat} {h h' : WinHandle} (same : WinHandle.Same h h') (v : WinView) :
    WinHandle.Owns u h' v ↔ WinHandle.Owns u h v := by
  cases h <;> cases h' <;> simp only [WinHandle.Same] at same
  · rw [same]
  · simp only [WinHandle.Owns, same.1, same.2]
  · simp only [WinHandle.Owns, same.1, same.2]

theorem win_same_there {u : Nat} {h h' : WinHandle} (same : WinHandle.Same h h') {vs : List WinView}
    (there : WinHandle.There u vs h) : WinHandle.There u vs h' := by
  cases h <;> cases h' <;> simp only [WinHandle.Same] at same
  · rw [← same]; exact there
  · simp only [WinHandle.There, same.1, same.2] at there ⊢; exact there
  · simp only [WinHandle.There, same.1, same.2] at there ⊢; exact there

theorem WinHandle.Same.refl (h : WinHandle) : WinHandle.Same h h := by
  cases h <;> simp [WinHandle.Same]

theorem WinHandle.Same.trans {a b c : WinHandle} (h : WinHandle.Same a b) (g : WinHandle.Same b c) :
    WinHandle.Same a c := by
  cases a <;> cases b <;> simp only [WinHandle.Same] at h <;> cases c <;> simp only [WinHandle.Same] at g ⊢
  · exact h.trans g
  · exact ⟨g.1.trans h.1, g.2.trans h.2⟩
  · exact ⟨g.1.trans h.1, g.2.trans h.2⟩

/-! ### The invariant -/

/-- Everything but the views, files, the record of calls and the numbers in use is the same. -/
structure WinKeeps (s s' : Vmap.Win) : Prop where
  handles : s'.handles = s.handles
  reserved : s'.reserved = s.reserved
  page : s'.page = s.page
  gran : s'.gran = s.gran

theorem WinKeeps.refl (s : Vmap.Win) : WinKeeps s s := ⟨rfl, rfl, rfl, rfl⟩

theorem WinKeeps.trans {a b c : Vmap.Win} (h : WinKeeps a b) (g : WinKeeps b c) : WinKeeps a c :=
  ⟨g.1.trans h.1, g.2.trans h.2, g.3.trans h.3, g.4.trans h.4⟩

theorem WinRest.keeps {s s' : Vmap.Win} (h : WinRest s s') : WinKeeps s s' :=
  ⟨h.handles, h.reserved, h.page, h.gran⟩

/-- What holds in every state a program can reach. -/
structure WinInv (t : Target) (s0 : Vmap.Win) (w : WinWorld) : Prop where
  wf : WinWf t w.s
  laid : WinLaid t w.s
  keeps : WinKeeps s0 w.s
  next : ∀ i, w.next ≤ i → w.held i = none
  there : ∀ i h, w.held i = some h → WinHandle.There s0.gran w.s.views h
  left : ∀ m, m ∈ w.empties → m.len = 0 ∧ ∃ v, v ∈ w.s.views ∧ MapView s0.gran m v
  base : ∀ v, v ∈ s0.views → v ∈ w.s.views
  all : ∀ v, v ∈ w.s.views → v ∈ s0.views ∨
    (∃ i h, w.held i = some h ∧ WinHandle.Owns s0.gran h v) ∨ ∃ m, m ∈ w.empties ∧ MapView s0.gran m v
  one : ∀ i j h h' v, v ∈ w.s.views → w.held i = some h → w.held j = some h' →
    WinHandle.Owns s0.gran h v → WinHandle.Owns s0.gran h' v → i = j
  oneStart : ∀ i h v, v ∈ s0.views → w.held i = some h → ¬ WinHandle.Owns s0.gran h v
  oneLeft : ∀ m v, m ∈ w.empties → v ∈ w.s.views → MapView s0.gran m v →
    v ∉ s0.views ∧ ∀ i h, w.held i = some h → ¬ WinHandle.Owns s0.gran h v
  sole : ∀ i h v v', w.held i = some h → v ∈ w.s.views → v' ∈ w.s.views → WinHandle.Owns s0.gran h v →
    v'.sec.id = v.sec.id → WinHandle.Owns s0.gran h v'

theorem WinInv.start {t : Target} {s0 : Vmap.Win} (wf : WinWf t s0) (laid : WinLaid t s0) :
    WinInv t s0 (WinWorld.start s0) :=
  ⟨wf, laid, .refl _, fun _ _ => rfl, fun _ _ h => (nomatch h), fun _ h => (nomatch h), fun _ h => h,
    fun _ h => .inl h, fun _ _ _ _ _ _ h => (nomatch h), fun _ _ _ _ h => (nomatch h),
    fun _ _ h => (nomatch h), fun _ _ _ _ h => (nomatch h)⟩

/-- A step that leaves the views as they are. -/
theorem WinInv.keep {t : Target} {s0 : Vmap.Win} {w w' : WinWorld} (inv : WinInv t s0 w)
    (wf : WinWf t w'.s) (laid : WinLaid t w'.s) (keeps : WinKeeps w.s w'.s) (views : w'.s.views = w.s.views)
    (hn : w'.next = w.next) (he : w'.empties = w.empties)
    (hh : ∀ j, (w.held j = none ∧ w'.held j = none) ∨
      ∃ h h', w.held j = some h ∧ w'.held j = some h' ∧ WinHandle.Same h h') : WinInv t s0 w' := by
  have back : ∀ j h', w'.held j = some h' → ∃ h, w.held j = some h ∧ WinHandle.Same h h' := by
    intro j h' hj
    rcases hh j with ⟨-, h2⟩ | ⟨h, h2, a, b, c⟩
    · rw [h2] at hj; cases hj
    · rw [b] at hj; injection hj with hj; subst hj; exact ⟨h, a, c⟩
  refine ⟨wf, laid, inv.keeps.trans keeps, ?_, ?_, ?_, ?_, ?_, ?_, ?_, ?_, ?_⟩
  · intro i hi
    rw [hn] at hi
    rcases hh i with ⟨-, h2⟩ | ⟨h, h2, a, -, -⟩
    · exact h2
    · rw [inv.next i hi] at a; cases a
  · intro i h' hi
    obtain ⟨h, a, b⟩ := back i h' hi
    rw [views]
    exact win_same_there b (inv.there i h a)
  · rw [he, views]; exact inv.left
  · rw [views]; exact inv.base
  · intro v hv
    rw [views] at hv
    rcases inv.all v hv with h | ⟨i, h, h1, h2⟩ | h
    · exact .inl h
    · rcases hh i with ⟨h3, -⟩ | ⟨g, h', a, b, c⟩
      · rw [h3] at h1; cases h1
      · rw [a] at h1; injection h1 with h1; subst h1
        exact .inr (.inl ⟨i, h', b, (win_same_owns c v).mpr h2⟩)
    · rw [he]; exact .inr (.inr h)
  · intro i j h h' v hv hi hj o1 o2
    obtain ⟨g, a, b⟩ := back i h hi
    obtain ⟨g', a', b'⟩ := back j h' hj
    rw [views] at hv
    exact inv.one i j g g' v hv a a' ((win_same_owns b v).mp o1) ((win_same_owns b' v).mp o2)
  · intro i h v hv hi o
    obtain ⟨g, a, b⟩ := back i h hi
    exact inv.oneStart i g v hv a ((win_same_owns b v).mp o)
  · intro m v hm hv o
    rw [he] at hm
    rw [views] at hv
    obtain ⟨h1, h2⟩ := inv.oneLeft m v hm hv o
    refine ⟨h1, fun i h hi o' => ?_⟩
    obtain ⟨g, a, b⟩ := back i h hi
    exact h2 i g a ((win_same_owns b v).mp o')
  · intro i h v v' hi hv hv' o hs
    obtain ⟨g, a, b⟩ := back i h hi
    rw [views] at hv hv'
    exact (win_same_owns b v').mpr (inv.sole i g v v' a hv hv' ((win_same_owns b v).mp o) hs)

/-- A step that makes something. -/
theorem WinInv.add {t : Target} {s0 : Vmap.Win} {w : WinWorld} (inv : WinInv t s0 w) {s' : Vmap.Win}
    (wf : WinWf t s') (laid : WinLaid t s') (keeps : WinKeeps w.s s') {new : List WinView}
    (views : s'.views = new ++ w.s.views) {h : WinHandle} (there : WinHandle.There s0.gran new h)
    (owns : ∀ v, v ∈ new → WinHandle.Owns s0.gran h v) (newer : ∀ v, v ∈ new → w.s.next ≤ v.sec.id) :
    WinInv t s0 (w.put s' h) := by
  have fresh : ∀ v, v ∈ new → v ∉ w.s.views := fun v hv ho => by
    have := newer v hv
    have := (inv.wf.views v ho).2
    omega
  have mem : ∀ v, v ∈ s'.views ↔ v ∈ new ∨ v ∈ w.s.views := fun v => by rw [views, List.mem_append]
  have old : ∀ i g v, w.held i = some g → v ∈ s'.views → WinHandle.Owns s0.gran g v → v ∈ w.s.views :=
    fun i g v hi hv o => win_owns_mem laid (fun x hx => (mem x).mpr (.inr hx)) (inv.there i g hi) hv o
  have isNew : ∀ v, v ∈ s'.views → WinHandle.Owns s0.gran h v → v ∈ new :=
    fun v hv o => win_owns_mem laid (fun x hx => (mem x).mpr (.inl hx)) there hv o
  have held : ∀ i g, (w.put s' h).held i = some g → (i = w.next ∧ g = h) ∨ (i ≠ w.next ∧ w.held i = some g) := by
    intro i g hg
    simp only [WinWorld.put] at hg
    by_cases hi : i = w.next
    · rw [if_pos hi] at hg; injection hg with hg; exact .inl ⟨hi, hg.symm⟩
    · rw [if_neg hi] at hg; exact .inr ⟨hi, hg⟩
  have oldHeld : ∀ i g, w.held i = some g → (w.put s' h).held i = some g := by
    intro i g hg
    simp only [WinWorld.put]
    rw [if_neg]
    · exact hg
    · rintro rfl
      rw [inv.next _ (Nat.le_refl _)] at hg
      cases hg
  refine ⟨wf, laid, inv.keeps.trans keeps, ?_, ?_, ?_, ?_, ?_, ?_, ?_, ?_, ?_⟩
  · intro i hi
    simp only [WinWorld.put] at hi ⊢
    rw [if_neg (by omega)]
    exact inv.next i (by omega)
  · intro i g hg
    rcases held i g hg with ⟨-, rfl⟩ | ⟨-, hg⟩
    · exact win_there_mono (fun v hv _ => (mem v).mpr (.inl hv)) there
    · exact win_there_mono (fun v hv _ => (mem v).mpr (.inr hv)) (inv.there i g hg)
  · intro m hm
    obtain ⟨h1, v, hv, h2⟩ := inv.left m hm
    exact ⟨h1, v, (mem v).mpr (.inr hv), h2⟩
  · intro v hv
    exact (mem v).mpr (.inr (inv.base v hv))
  · intro v hv
    rcases (mem v).mp hv with hv | hv
    · exact .inr (.inl ⟨w.next, h, by simp [WinWorld.put], owns v hv⟩)
    · rcases inv.all v hv with h1 | ⟨i, g, h1, h2⟩ | h1
      · exact .inl h1
      · exact .inr (.inl ⟨i, g, oldHeld i g h1, h2⟩)
      · exact .inr (.inr h1)
  · intro i j g g' v hv hi hj o1 o2
    rcases held i g hi with ⟨a1, a2⟩ | ⟨-, hi'⟩ <;> rcases held j g' hj with ⟨b1, b2⟩ | ⟨-, hj'⟩
    · rw [a1, b1]
    · exact absurd (old j g' v hj' hv o2) (fresh v (isNew v hv (a2 ▸ o1)))
    · exact absurd (old i g v hi' hv o1) (fresh v (isNew v hv (b2 ▸ o2)))
    · exact inv.one i j g g' v (old i g v hi' hv o1) hi' hj' o1 o2
  · intro i g v hv hi o
    rcases held i g hi with ⟨rfl, rfl⟩ | ⟨-, hi⟩
    · exact fresh v (isNew v ((mem v).mpr (.inr (inv.base v hv))) o) (inv.base v hv)
    · exact inv.oneStart i g v hv hi o
  · intro m v hm hv o
    have hvo : v ∈ w.s.views := by
      obtain ⟨-, x, hx, hmx⟩ := inv.left m hm
      rw [laid.base_inj hv ((mem x).mpr (.inr hx)) (win_mapView_base o hmx)]
      exact hx
    obtain ⟨h1, h2⟩ := inv.oneLeft m v hm hvo o
    refine ⟨h1, fun i g hi o' => ?_⟩
    rcases held i g hi with ⟨rfl, rfl⟩ | ⟨-, hi⟩
    · exact fresh v (isNew v hv o') hvo
    · exact h2 i g hi o'
  · intro i g v v' hi hv hv' o hs
    rcases held i g hi with ⟨a1, a2⟩ | ⟨-, hi⟩
    · rw [a2] at o ⊢
      have h1 := newer v (isNew v hv o)
      rcases (mem v').mp hv' with h2 | h2
      · exact owns v' h2
      · have := (inv.wf.views v' h2).2
        omega
    · have h1 := old i g v hi hv o
      have h3 := (inv.wf.views v h1).2
      rcases (mem v').mp hv' with h2 | h2
      · have := newer v' h2
        omega
      · exact inv.sole i g v v' hi h1 h2 o hs

theorem _root_.Vmap.Spec.WinLaid.sub {t : Target} {s s' : Vmap.Win} (l : WinLaid t s) (keeps : WinKeeps s s')
    (sub : s'.views.Sublist s.views) : WinLaid t s' := by
  have hrp : ∀ n, s'.roundPage n = s.roundPage n := fun n => by simp only [Win.roundPage, keeps.page]
  refine ⟨by rw [keeps.page, keeps.gran]; exact l.sizes, ?_, ?_⟩
  · intro v hv
    rw [keeps.gran, hrp]
    exact l.inside v (sub.subset hv)
  · simp only [hrp]
    exact l.apart.sublist sub

/-- A step that removes something with its memory. -/
theorem WinInv.remove {t : Target} {s0 : Vmap.Win} {w : WinWorld} (inv : WinInv t s0 w) {s' : Vmap.Win}
    (wf : WinWf t s') (keeps : WinKeeps w.s s') {i : Nat} {h : WinHandle} (hi : w.held i = some h)
    (sub : s'.views.Sublist w.s.views)
    (views : ∀ v, v ∈ s'.views ↔ v ∈ w.s.views ∧ ¬ WinHandle.Owns s0.gran h v) :
    WinInv t s0 (w.upd s' i none) := by
  have laid := inv.laid.sub keeps sub
  have held : ∀ j g, (w.upd s' i none).held j = some g → j ≠ i ∧ w.held j = some g := by
    intro j g hg
    simp only [WinWorld.upd] at hg
    by_cases hj : j = i
    · rw [if_pos hj] at hg; cases hg
    · rw [if_neg hj] at hg; exact ⟨hj, hg⟩
  have hne : ∀ j g v, j ≠ i → w.held j = some g → v ∈ w.s.views → WinHandle.Owns s0.gran g v →
      v ∈ s'.views := fun j g v hj hg hv o =>
    (views v).mpr ⟨hv, fun o' => hj (inv.one j i g h v hv hg hi o o')⟩
  refine ⟨wf, laid, inv.keeps.trans keeps, ?_, ?_, ?_, ?_, ?_, ?_, ?_, ?_, ?_⟩
  · intro j hj
    simp only [WinWorld.upd] at hj ⊢
    by_cases hc : j = i
    · rw [if_pos hc]
    · rw [if_neg hc]; exact inv.next j hj
  · intro j g hg
    obtain ⟨hj, hg⟩ := held j g hg
    exact win_there_mono (fun v hv o => hne j g v hj hg hv o) (inv.there j g hg)
  · intro m hm
    obtain ⟨h1, v, hv, h2⟩ := inv.left m hm
    exact ⟨h1, v, (views v).mpr ⟨hv, (inv.oneLeft m v hm hv h2).2 i h hi⟩, h2⟩
  · intro v hv
    exact (views v).mpr ⟨inv.base v hv, inv.oneStart i h v hv hi⟩
  · intro v hv
    obtain ⟨hv, hno⟩ := (views v).mp hv
    rcases inv.all v hv with h1 | ⟨j, g, h1, h2⟩ | h1
    · exact .inl h1
    · have hj : j ≠ i := by
        rintro rfl
        rw [hi] at h1
        injection h1 with h1
        subst h1
        exact hno h2
      exact .inr (.inl ⟨j, g, by simp only [WinWorld.upd]; rw [if_neg hj]; exact h1, h2⟩)
    · exact .inr (.inr h1)
  · intro a b g g' v hv ha hb o1 o2
    exact inv.one a b g g' v (sub.subset hv) (held a g ha).2 (held b g' hb).2 o1 o2
  · intro a g v hv ha o
    exact inv.oneStart a g v hv (held a g ha).2 o
  · intro m v hm hv o
    obtain ⟨h1, h2⟩ := inv.oneLeft m v hm (sub.subset hv) o
    exact ⟨h1, fun a g ha => h2 a g (held a g ha).2⟩
  · intro j g v v' hj hv hv' o hs
    exact inv.sole j g v v' (held j g hj).2 (sub.subset hv) (sub.subset hv') o hs

/-- Dropping an empty map. -/
theorem WinInv.abandon {t : Target} {s0 : Vmap.Win} {w : WinWorld} (inv : WinInv t s0 w) {i : Nat} {m : MapMut}
    (hi : w.held i = some (.map m)) (hm : m.len = 0) :
    WinInv t s0 { w.upd w.s i none with empties := m :: w.empties } := by
  have held : ∀ j g, (w.upd w.s i none).held j = some g → j ≠ i ∧ w.held j = some g := by
    intro j g hg
    simp only [WinWorld.upd] at hg
    by_cases hj : j = i
    · rw [if_pos hj] at hg; cases hg
    · rw [if_neg hj] at hg; exact ⟨hj, hg⟩
  refine ⟨inv.wf, inv.laid, inv.keeps, ?_, ?_, ?_, inv.base, ?_, ?_, ?_, ?_, ?_⟩
  · intro j hj
    simp only [WinWorld.upd] at hj ⊢
    by_cases hc : j = i
    · rw [if_pos hc]
    · rw [if_neg hc]; exact inv.next j hj
  · intro j g hg
    exact inv.there j g (held j g hg).2
  · intro x hx
    rcases List.mem_cons.mp hx with rfl | hx
    · exact ⟨hm, inv.there i _ hi⟩
    · exact inv.left x hx
  · intro v hv
    rcases inv.all v hv with h1 | ⟨j, g, h1, h2⟩ | ⟨x, hx, h1⟩
    · exact .inl h1
    · by_cases hj : j = i
      · subst hj
        rw [hi] at h1
        injection h1 with h1
        subst h1
        exact .inr (.inr ⟨m, List.mem_cons_self, h2⟩)
      · exact .inr (.inl ⟨j, g, by simp only [WinWorld.upd]; rw [if_neg hj]; exact h1, h2⟩)
    · exact .inr (.inr ⟨x, List.mem_cons_of_mem _ hx, h1⟩)
  · intro a b g g' v hv ha hb o1 o2
    exact inv.one a b g g' v hv (held a g ha).2 (held b g' hb).2 o1 o2
  · intro a g v hv ha o
    exact inv.oneStart a g v hv (held a g ha).2 o
  · intro x v hx hv o
    rcases List.mem_cons.mp hx with rfl | hx
    · refine ⟨fun h0 => inv.oneStart i _ v h0 hi o, fun a g ha o' => ?_⟩
      obtain ⟨h1, h2⟩ := held a g ha
      exact h1 (inv.one a i g _ v hv h2 hi o' o)
    · obtain ⟨h1, h2⟩ := inv.oneLeft x v hx hv o
      exact ⟨h1, fun a g ha => h2 a g (held a g ha).2⟩
  · intro j g v v' hj hv hv' o hs
    exact inv.sole j g v v' (held j g hj).2 hv hv' o hs

/-! ### What a step keeps -/

/-- A step uses no handle number again, and what is still held afterwards is the same thing with the
same views. -/
structure WinKept (u : Nat) (w w' : WinWorld) : Prop where
  next : w.next ≤ w'.next
  held : ∀ i, i < w.next → w'.held i = none ∨ ∃ h h', w.held i = some h ∧ w'.held i = some h' ∧
    WinHandle.Same h h' ∧ ∀ v, v ∈ w.s.views → WinHandle.Owns u h v → v ∈ w'.s.views

/-- The invariant holds after the step too, and the step keeps what is held. -/
structure WinNext (t : Target) (s0 : Vmap.Win) (w w' : WinWorld) : Prop where
  inv : WinInv t s0 w'
  kept : WinKept s0.gran w w'

theorem WinKept.refl (u : Nat) (w : WinWorld) : WinKept u w w := by
  refine ⟨Nat.le_refl _, fun i _ => ?_⟩
  cases h : w.held i with
  | none => exact .inl rfl
  | some g => exact .inr ⟨g, g, rfl, rfl, WinHandle.Same.refl g, fun _ hv _ => hv⟩

theorem WinKept.trans {u : Nat} {a b c : WinWorld} (h : WinKept u a b) (g : WinKept u b c) : WinKept u a c := by
  refine ⟨Nat.le_trans h.next g.next, fun i hi => ?_⟩
  rcases g.held i (Nat.lt_of_lt_of_le hi h.next) with h1 | ⟨x, y, h1, h2, h3, h4⟩
  · exact .inl h1
  · rcases h.held i hi with g1 | ⟨x', y', g1, g2, g3, g4⟩
    · rw [g1] at h1; cases h1
    · rw [g2] at h1
      injection h1 with h1
      subst h1
      exact .inr ⟨x', y, g1, h2, WinHandle.Same.trans g3 h3, fun v hv o => h4 v (g4 v hv o) ((win_same_owns g3 v).mpr o)⟩

theorem WinInv.keep' {t : Target} {s0 : Vmap.Win} {w w' : WinWorld} (inv : WinInv t s0 w)
    (wf : WinWf t w'.s) (laid : WinLaid t w'.s) (keeps : WinKeeps w.s w'.s) (views : w'.s.views = w.s.views)
    (hn : w'.next = w.next) (he : w'.empties = w.empties)
    (hh : ∀ j, (w.held j = none ∧ w'.held j = none) ∨
      ∃ h h', w.held j = some h ∧ w'.held j = some h' ∧ WinHandle.Same h h') : WinNext t s0 w w' := by
  refine ⟨inv.keep wf laid keeps views hn he hh, by omega, fun i _ => ?_⟩
  rcases hh i with ⟨-, h⟩ | ⟨h, h', a, b, c⟩
  · exact .inl h
  · exact .inr ⟨h, h', a, b, c, fun v hv _ => views ▸ hv⟩

theorem WinInv.add' {t : Target} {s0 : Vmap.Win} {w : WinWorld} (inv : WinInv t s0 w) {s' : Vmap.Win}
    (wf : WinWf t s') (laid : WinLaid t s') (keeps : WinKeeps w.s s') {new : List WinView}
    (views : s'.views = new ++ w.s.views) {h : WinHandle} (there : WinHandle.There s0.gran new h)
    (owns : ∀ v, v ∈ new → WinHandle.Owns s0.gran h v) (newer : ∀ v, v ∈ new → w.s.next ≤ v.sec.id) :
    WinNext t s0 w (w.put s' h) := by
  refine ⟨inv.add wf laid keeps views there owns newer, Nat.le_succ _, fun i hi => ?_⟩
  simp only [WinWorld.put]
  rw [if_neg (by omega)]
  cases hg : w.held i with
  | none => exact .inl rfl
  | some g => exact .inr ⟨g, g, rfl, rfl, WinHandle.Same.refl g, fun v hv _ => by rw [views]; exact List.mem_append_right _ hv⟩

theorem WinInv.remove' {t : Target} {s0 : Vmap.Win} {w : WinWorld} (inv : WinInv t s0 w) {s' : Vmap.Win}
    (wf : WinWf t s') (keeps : WinKeeps w.s s') {i : Nat} {h : WinHandle} (hi : w.held i = some h)
    (sub : s'.views.Sublist w.s.views)
    (views : ∀ v, v ∈ s'.views ↔ v ∈ w.s.views ∧ ¬ WinHandle.Owns s0.gran h v) :
    WinNext t s0 w (w.upd s' i none) := by
  refine ⟨inv.remove wf keeps hi sub views, Nat.le_refl _, fun j _ => ?_⟩
  simp only [WinWorld.upd]
  by_cases hj : j = i
  · rw [if_pos hj]; exact .inl rfl
  · rw [if_neg hj]
    cases hg : w.held j with
    | none => exact .inl rfl
    | some g =>
      exact .inr ⟨g, g, rfl, rfl, WinHandle.Same.refl g, fun v hv o =>
        (views v).mpr ⟨hv, fun o' => hj (inv.one j i g h v hv hg hi o o')⟩⟩

theorem WinInv.abandon' {t : Target} {s0 : Vmap.Win} {w : WinWorld} (inv : WinInv t s0 w) {i : Nat} {m : MapMut}
    (hi : w.held i = some (.map m)) (hm : m.len = 0) :
    WinNext t s0 w { w.upd w.s i none with empties := m :: w.empties } := by
  refine ⟨inv.abandon hi hm, Nat.le_refl _, fun j _ => ?_⟩
  simp only [WinWorld.upd]
  by_cases hj : j = i
  · rw [if_pos hj]; exact .inl rfl
  · rw [if_neg hj]
    cases hg : w.held j with
    | none => exact .inl rfl
    | some g => exact .inr ⟨g, g, rfl, rfl, WinHandle.Same.refl g, fun v hv _ => hv⟩

end Vmap
