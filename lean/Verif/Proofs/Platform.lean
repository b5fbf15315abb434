import Verif.Spec.Platform
import Verif.Props.Windows
import Verif.Props.Mach
import Verif.Props.Ring
import Verif.Props.InfiniteRing
/- Helper lemmas about rings on Windows and macOS. -/
namespace Vmap
open Spec Kernel

/-- An address that shows something lies in a view that says so. -/
theorem winShows_some {s : Vmap.Win} {a i j : Nat} (h : winShows s a = some (i, j)) :
    ∃ v, v ∈ s.views ∧ v.base ≤ a ∧ a < v.base + v.len ∧ v.sec.id = i ∧ v.off + (a - v.base) = j := by
  simp only [winShows, Option.map_eq_some_iff] at h
  obtain ⟨v, hf, hv⟩ := h
  have h1 := List.find?_some hf
  simp only [decide_eq_true_eq] at h1
  simp only [Prod.mk.injEq] at hv
  exact ⟨v, List.mem_of_find?_eq_some hf, h1.1, h1.2, hv.1, hv.2⟩

/-- No view covers an address that shows nothing. -/
theorem winShows_none {s : Vmap.Win} {a : Nat} (h : winShows s a = none) {v : WinView}
    (hv : v ∈ s.views) : ¬ (v.base ≤ a ∧ a < v.base + v.len) := by
  simp only [winShows, Option.map_eq_none_iff, List.find?_eq_none, decide_eq_true_eq] at h
  exact h v hv

/-- A new Windows ring is a circular mapping, in every possible memory of the process. -/
theorem WinRing.circular {t : Target} {s s' : Vmap.Win} (w : WinWf t s) {pg len : Nat}
    (hl : 0 < len) (hd : s.gran ∣ len) (r : WinRing t s s' pg len) (hp : s'.page = s.page)
    {k : Kernel} {obj : Nat → Obj} (m : WinMem s' k obj) : k.Circular t pg len := by
  have hpd := w.page_dvd
  have hkp : k.page = s.page := m.page.trans hp
  obtain ⟨id, hid, hring⟩ := r.ring
  obtain ⟨v1, v2, hviews, a1, a2, i1, i2, i3, i4, -, -, -⟩ := r.access
  have hmem : ∀ v, v ∈ s'.views → v = v2 ∨ v = v1 ∨ v ∈ s.views := by
    intro v hv
    rw [hviews] at hv
    simpa using hv
  refine ⟨obj id, ⟨hl, ?_, ?_, ?_, ?_⟩, ?_⟩
  · rw [hkp]; exact Nat.dvd_trans hpd r.aligned
  · rw [hkp]; exact Nat.dvd_trans hpd hd
  · exact Nat.le_of_lt r.place.2
  · intro i hi
    obtain ⟨hn, hs⟩ := hring i hi
    obtain ⟨v, hv, b1, b2, b3, b4⟩ := winShows_some hs
    have hacc : v.access = { read := true, write := true } := by
      rcases hmem v hv with rfl | rfl | hv
      · exact a2
      · exact a1
      · exact absurd ⟨b1, b2⟩ (winShows_none hn hv)
    obtain ⟨e, e1, e2, e3, e4, e5, e6, e7, e8⟩ := m.view v hv _ b1 b2
    rw [hacc] at e6 e7
    have hsh := e7.mpr rfl
    exact ⟨e, e1, e5, e6.mpr (.inl rfl), hsh, e8 hsh, by rw [e2, b3], by rw [e3, b4], e4⟩
  · intro q e he ho
    obtain ⟨v, hv, b1, b2, b3⟩ := m.only q e id he ho
    rcases hmem v hv with rfl | rfl | hv
    · omega
    · omega
    · have := (w.views v hv).2
      omega

/-- A new macOS ring is a circular mapping, in every possible memory of the task. -/
theorem MachRing.circular {t : Target} {s s' : Mach} (w : MachWf s) {addr n : Nat} (hn : 0 < n)
    (r : MachRing t s s' addr n) (hp : s'.page = s.page) {k : Kernel} {obj : Nat → Obj}
    (m : MachMem s' k obj s.fresh) : k.Circular t addr (n * s.page) := by
  have hkp : k.page = s.page := m.page.trans hp
  have hpos := w.page
  obtain ⟨o, ho, hsh⟩ := r.shows'
  have haddr : addr / s.page * s.page = addr := by
    have := Nat.div_add_mod addr s.page
    rw [r.aligned] at this
    rw [Nat.mul_comm]; omega
  have hfull : 2 * (n * s.page) = 2 * n * s.page := (Nat.mul_assoc ..).symm
  refine ⟨obj o, ⟨Nat.mul_pos hn hpos, ?_, ?_, ?_, ?_⟩, ?_⟩
  · rw [hkp]; exact Nat.dvd_of_mod_eq_zero r.aligned
  · rw [hkp]; exact Nat.dvd_mul_left _ _
  · rw [hfull]; exact Nat.le_of_lt r.place.2
  · intro i hi
    have hdiv : (addr + i) / k.page = addr / s.page + i / s.page := by
      rw [hkp, Nat.add_div hpos, r.aligned, Nat.zero_add, if_neg (by have := Nat.mod_lt i hpos; omega)]
      omega
    have hmod : (addr + i) % k.page = i % s.page := by
      rw [hkp, Nat.add_mod, r.aligned, Nat.zero_add, Nat.mod_mod]
    have hq : i / s.page < 2 * n := (Nat.div_lt_iff_lt_mul hpos).mpr (by omega)
    have hent : ∃ j, s'.pt (addr / s.page + i / s.page) = some (o, j) ∧
        j * s.page + i % s.page = i % (n * s.page) := by
      have him := Nat.div_add_mod i s.page
      have hlt := Nat.mod_lt i hpos
      rw [Nat.mul_comm s.page] at him
      by_cases hh : i / s.page < n
      · refine ⟨_, (hsh _ hh).1, ?_⟩
        have : (i / s.page + 1) * s.page ≤ n * s.page := Nat.mul_le_mul_right _ hh
        rw [Nat.add_mul] at this
        rw [Nat.mod_eq_of_lt (a := i) (b := n * s.page) (by omega)]
        omega
      · refine ⟨i / s.page - n, ?_, ?_⟩
        · have := (hsh (i / s.page - n) (by omega)).2
          rwa [show addr / s.page + n + (i / s.page - n) = addr / s.page + i / s.page by omega] at this
        · have h1 : n * s.page ≤ i / s.page * s.page := Nat.mul_le_mul_right _ (by omega)
          rw [Nat.sub_mul, Nat.mod_eq_sub_mod (a := i) (b := n * s.page) (by omega),
            Nat.mod_eq_of_lt (a := i - n * s.page) (by omega)]
          omega
    obtain ⟨j, hj1, hj2⟩ := hent
    obtain ⟨e, e1, e2, e3, e4, e5, e6, e7, e8⟩ := m.entry _ _ _ hj1 ho
    refine ⟨e, by rw [hdiv]; exact e1, e5, e6, e7, e8, e2, ?_, e4⟩
    rw [hmod, e3, hkp]; exact hj2
  · intro q e he hobj
    obtain ⟨j, hj⟩ := m.only q e o he hobj
    rw [hkp]
    apply Decidable.byContradiction
    intro hne
    have : s'.pt q = s.pt q := by
      apply r.others
      intro i hi hqi
      apply hne
      subst hqi
      have h1 : i * s.page + s.page ≤ 2 * n * s.page := by
        have := Nat.mul_le_mul_right s.page (show i + 1 ≤ 2 * n by omega)
        rwa [Nat.add_mul, Nat.one_mul] at this
      rw [Nat.add_mul, haddr]
      omega
    rw [this] at hj
    have := w.objs _ _ hj
    omega

/-- Creating a ring keeps the views laid out properly. -/
theorem WinLaid.ring {t : Target} {s s' : Vmap.Win} (h : WinLaid t s) {pg len : Nat} (hl : 0 < len)
    (hd : s.gran ∣ len) (r : WinRing t s s' pg len) (rest : WinRest s s') : WinLaid t s' := by
  obtain ⟨a, b, ha, hb, hab, hbits⟩ := h.sizes
  have hpos : 0 < s.page := by rw [ha]; exact Nat.two_pow_pos a
  have hpg : s.page ∣ s.gran := by rw [ha, hb]; exact Nat.pow_dvd_pow 2 hab
  have hrp : ∀ n, s'.roundPage n = s.roundPage n := fun n => by simp only [Win.roundPage, rest.page]
  have hrl : s.roundPage len = len := Win.roundPage_dvd s hpos (Nat.dvd_trans hpg hd)
  obtain ⟨v1, v2, hviews, -, -, b1, b2, l1, l2, o1, o2, -⟩ := r.access
  obtain ⟨id, -, hring⟩ := r.ring
  have hplace := r.place
  -- an old view is on one side of the ring
  have hold : ∀ v, v ∈ s.views → pg + 2 * len ≤ v.base ∨ v.base + s.roundPage v.len ≤ pg := by
    intro v hv
    obtain ⟨i1, i2, i3, i4, i5⟩ := h.inside v hv
    apply Decidable.byContradiction
    intro hn
    -- the later of the two beginnings is in both
    by_cases hc : pg ≤ v.base
    · have := winShows_none (hring (v.base - pg) (by omega)).1 hv
      omega
    · have hlast := winShows_none (hring 0 (by omega)).1 hv
      have hle : v.base + v.len ≤ pg := by omega
      have h1 : s.page ∣ pg - v.base := Nat.dvd_sub (Nat.dvd_trans hpg r.aligned) (Nat.dvd_trans hpg i3)
      have := (isRoundUp_div (len := v.len) hpos).2.2 (pg - v.base) h1 (by omega)
      simp only [Win.roundPage] at hn
      omega
  refine ⟨by rw [rest.page, rest.gran]; exact h.sizes, ?_, ?_⟩
  · intro v hv
    rw [hviews] at hv
    simp only [List.mem_cons] at hv
    rw [hrp, rest.gran]
    rcases hv with rfl | rfl | hv
    · rw [b2, l2, o2, hrl]
      exact ⟨hl, by omega, (Nat.dvd_add_iff_right r.aligned).mp hd, Nat.dvd_zero _, by omega⟩
    · rw [b1, l1, o1, hrl]
      exact ⟨hl, by omega, r.aligned, Nat.dvd_zero _, by omega⟩
    · exact h.inside v hv
  · simp only [hrp]
    rw [hviews, List.pairwise_cons, List.pairwise_cons]
    refine ⟨?_, ?_, h.apart⟩
    · intro v hv
      rcases List.mem_cons.mp hv with rfl | hv
      · rw [b1, b2, l1, l2, hrl]; omega
      · have := hold v hv
        rw [b2, l2, hrl]; omega
    · intro v hv
      have := hold v hv
      rw [b1, l1, hrl]; omega

/-- The largest of some numbers. -/
def largest (l : List Nat) : Nat := l.foldr max 0

theorem le_largest {l : List Nat} {x : Nat} (h : x ∈ l) : x ≤ largest l := by
  induction l with
  | nil => cases h
  | cons y l ih =>
    simp only [largest, List.foldr_cons] at ih ⊢
    rcases List.mem_cons.mp h with rfl | h
    · omega
    · have := ih h
      omega

theorem find?_unique {α : Type} {R : α → α → Prop} {P : α → Bool} {v : α}
    (hP : ∀ x y, P x = true → P y = true → ¬ R x y) : ∀ {l : List α}, l.Pairwise R → v ∈ l →
    P v = true → l.find? P = some v
  | x :: l, hl, hv, h => by
    rw [List.pairwise_cons] at hl
    by_cases hx : P x = true
    · rw [List.find?_cons_of_pos hx]
      rcases List.mem_cons.mp hv with rfl | hv
      · rfl
      · exact absurd (hl.1 v hv) (hP x v hx h)
    · rw [List.find?_cons_of_neg hx]
      rcases List.mem_cons.mp hv with rfl | hv
      · exact absurd h hx
      · exact find?_unique hP hl.2 hv h

/-- One possible memory of a Windows process: nothing but the views. -/
def winMemory (s : Vmap.Win) : Kernel where
  page := s.page
  pt := fun q => (s.views.find? fun v =>
      decide (v.base ≤ q * s.page ∧ q * s.page < v.base + v.len)).map fun v =>
    { obj := v.sec.id, idx := (v.off + (q * s.page - v.base)) / s.page,
      prot := { r := true, w := v.access.write || v.access.copy, x := v.access.exec },
      shared := !v.access.copy, mayWrite := true, copy := none, locked := false }
  data := fun _ _ => 0
  size := fun o => largest (s.views.map fun v => if v.sec.id = o then v.off + v.len else 0)
  disk := fun _ _ => 0
  fds := fun _ => none
  names := fun _ => none
  fresh := largest (s.views.map fun v => v.sec.id + 1)
  nextFd := 0
  tick := 0
  log := []
  oracle := fun _ => ⟨false, 0, 0, false⟩

/-- A process whose views are laid out properly has a memory. -/
theorem WinLaid.memory {t : Target} {s : Vmap.Win} (h : WinLaid t s) :
    Wf t (winMemory s) ∧ WinMem s (winMemory s) (fun i => i) := by
  obtain ⟨a, b, ha, hb, hab, hbits⟩ := h.sizes
  have hpos : 0 < s.page := by rw [ha]; exact Nat.two_pow_pos a
  have hpg : s.page ∣ s.gran := by rw [ha, hb]; exact Nat.pow_dvd_pow 2 hab
  have hpt : ∀ q e, (winMemory s).pt q = some e → ∃ v, v ∈ s.views ∧ v.base ≤ q * s.page ∧
      q * s.page < v.base + v.len ∧ e.obj = v.sec.id ∧ e.copy = none := by
    intro q e he
    simp only [winMemory, Option.map_eq_some_iff] at he
    obtain ⟨v, hv, rfl⟩ := he
    have h1 := List.find?_some hv
    simp only [decide_eq_true_eq] at h1
    exact ⟨v, List.mem_of_find?_eq_some hv, h1.1, h1.2, rfl, rfl⟩
  refine ⟨⟨⟨a, ha, by omega⟩, ?_, ?_, fun _ _ hf => (by cases hf), fun _ _ hf => (by cases hf), ?_, ?_⟩,
    ⟨rfl, fun _ _ h => h, ?_, ?_⟩⟩
  · intro q e he
    obtain ⟨v, hv, c1, c2, -⟩ := hpt q e he
    obtain ⟨i1, i2, i3, i4, i5⟩ := h.inside v hv
    refine ⟨?_, ?_⟩
    · apply Nat.pos_of_ne_zero
      rintro rfl
      omega
    · show (q + 1) * s.page < t.lim
      have hr := isRoundUp_div (len := v.len) hpos
      obtain ⟨x, hx⟩ := Nat.dvd_add (Nat.dvd_trans hpg i3) hr.1
      have hle := hr.2.1
      simp only [Win.roundPage] at i5
      rw [hx] at i5
      have h2 : q * s.page < s.page * x := by omega
      rw [Nat.mul_comm] at h2
      have h3 := Nat.lt_of_mul_lt_mul_left h2
      have h4 := Nat.mul_le_mul_right s.page (show q + 1 ≤ x by omega)
      rw [Nat.mul_comm x] at h4
      omega
  · intro q e he
    obtain ⟨v, hv, -, -, c3, c4⟩ := hpt q e he
    refine ⟨?_, fun c hc => (by rw [c4] at hc; cases hc)⟩
    rw [c3]
    exact le_largest (List.mem_map.mpr ⟨v, hv, rfl⟩)
  · intro q e c he hc
    obtain ⟨-, -, -, -, -, c4⟩ := hpt q e he
    rw [c4] at hc; cases hc
  · intro q e he _
    obtain ⟨-, -, -, -, -, c4⟩ := hpt q e he
    exact c4
  · intro v hv x hx1 hx2
    obtain ⟨i1, i2, i3, i4, i5⟩ := h.inside v hv
    obtain ⟨m, hm⟩ := Nat.dvd_trans hpg i3
    obtain ⟨n, hn⟩ := Nat.dvd_trans hpg i4
    have hdm := Nat.div_add_mod x s.page
    have hml := Nat.mod_lt x hpos
    have hmx : m ≤ x / s.page := (Nat.le_div_iff_mul_le hpos).mpr (by rw [Nat.mul_comm]; omega)
    have hmx2 := Nat.mul_le_mul_left s.page hmx
    have hc1 : v.base ≤ x / s.page * s.page := by rw [Nat.mul_comm]; omega
    have hc2 : x / s.page * s.page < v.base + v.len := by rw [Nat.mul_comm]; omega
    have hfind : (s.views.find? fun v => decide (v.base ≤ x / s.page * s.page ∧
        x / s.page * s.page < v.base + v.len)) = some v := by
      refine find?_unique ?_ h.apart hv (by simp only [decide_eq_true_eq]; exact ⟨hc1, hc2⟩)
      intro y z hy hz
      simp only [decide_eq_true_eq] at hy hz
      have := Win.roundPage_le s hpos y.len
      have := Win.roundPage_le s hpos z.len
      omega
    have hidx : (v.off + (x / s.page * s.page - v.base)) / s.page = n + (x / s.page - m) := by
      rw [hn, hm, Nat.mul_comm (x / s.page), ← Nat.mul_sub, ← Nat.mul_add, Nat.mul_div_cancel_left _ hpos]
    have hoff : (n + (x / s.page - m)) * s.page + x % s.page = v.off + (x - v.base) := by
      rw [Nat.mul_comm, Nat.mul_add, Nat.mul_sub, ← hn, ← hm]; omega
    have hpe : (winMemory s).pt (x / s.page) = some
        { obj := v.sec.id, idx := (v.off + (x / s.page * s.page - v.base)) / s.page,
          prot := { r := true, w := v.access.write || v.access.copy, x := v.access.exec },
          shared := !v.access.copy, mayWrite := true, copy := none, locked := false } := by
      show Option.map _ (s.views.find? _) = _
      rw [hfind]; rfl
    refine ⟨_, hpe, rfl, ?_, ?_, rfl, ?_, ?_, fun _ => rfl⟩
    · show (v.off + (x / s.page * s.page - v.base)) / s.page * s.page + x % s.page = _
      rw [hidx, hoff]
    · show decide ((v.off + (x / s.page * s.page - v.base)) / s.page * s.page < _) = true
      rw [hidx, decide_eq_true_eq]
      have : v.off + v.len ≤ (winMemory s).size v.sec.id :=
        le_largest (List.mem_map.mpr ⟨v, hv, if_pos rfl⟩)
      exact Nat.lt_of_lt_of_le (show _ < v.off + v.len by omega) this
    · simp
    · simp
  · intro q e i he ho
    obtain ⟨v, hv, c1, c2, c3, c4⟩ := hpt q e he
    rw [c3, c4] at ho
    rcases ho with ho | ho
    · exact ⟨v, hv, ho, c1, c2⟩
    · cases ho

/-- Creating a ring keeps the pages of the task laid out properly. -/
theorem MachLaid.ring {t : Target} {s s' : Mach} (h : MachLaid t s) {addr n : Nat}
    (r : MachRing t s s' addr n) (hp : s'.page = s.page) : MachLaid t s' := by
  obtain ⟨a, ha, hbits⟩ := h.page
  have hpos : 0 < s.page := by rw [ha]; exact Nat.two_pow_pos a
  obtain ⟨o, -, hsh⟩ := r.shows'
  have haddr : addr / s.page * s.page = addr := by
    have := Nat.div_add_mod addr s.page
    rw [r.aligned] at this
    rw [Nat.mul_comm]; omega
  have hplace := r.place
  have h0 : 0 < addr / s.page := by
    apply Nat.pos_of_ne_zero
    intro h0
    rw [h0] at haddr
    omega
  have hin : ∀ i, i < 2 * n → 0 < addr / s.page + i ∧ (addr / s.page + i + 1) * s.page < t.lim := by
    intro i hi
    refine ⟨by omega, ?_⟩
    have := Nat.mul_le_mul_right s.page (show i + 1 ≤ 2 * n by omega)
    rw [Nat.add_assoc, Nat.add_mul, haddr]
    omega
  have hsz : ∀ i, i < n → i * s.page < t.lim := by
    intro i hi
    have := Nat.mul_le_mul_right s.page (show i ≤ 2 * n by omega)
    omega
  refine ⟨⟨a, hp.trans ha, hbits⟩, ?_⟩
  intro q i j hq
  rw [hp]
  by_cases hc : ∃ x, x < 2 * n ∧ q = addr / s.page + x
  · obtain ⟨x, hx, rfl⟩ := hc
    refine ⟨(hin x hx).1, (hin x hx).2, ?_⟩
    by_cases hxn : x < n
    · rw [(hsh x hxn).1] at hq
      injection hq with hq
      injection hq with _ hq
      subst hq
      exact hsz _ hxn
    · have := (hsh (x - n) (by omega)).2
      rw [show addr / s.page + n + (x - n) = addr / s.page + x by omega, hq] at this
      injection this with hq
      injection hq with _ hq
      subst hq
      exact hsz _ (by omega)
  · rw [r.others q (fun x hx hqx => hc ⟨x, hx, hqx⟩)] at hq
    exact h.inside q i j hq

/-- One possible memory of a macOS task. -/
def machMemory (t : Target) (s : Mach) : Kernel where
  page := s.page
  pt := fun q => (s.pt q).map fun e =>
    { obj := e.1, idx := e.2, prot := { r := true, w := true, x := false }, shared := true,
      mayWrite := true, copy := none, locked := false }
  data := fun _ _ => 0
  size := fun _ => t.lim
  disk := fun _ _ => 0
  fds := fun _ => none
  names := fun _ => none
  fresh := s.fresh
  nextFd := 0
  tick := 0
  log := []
  oracle := fun _ => ⟨false, 0, 0, false⟩

/-- A task whose pages are laid out properly has a memory. -/
theorem MachLaid.memory {t : Target} {s : Mach} (h : MachLaid t s) (w : MachWf s) :
    Wf t (machMemory t s) ∧ ∀ n, MachMem s (machMemory t s) (fun i => i) n := by
  obtain ⟨a, ha, hbits⟩ := h.page
  have hpt : ∀ q e, (machMemory t s).pt q = some e → s.pt q = some (e.obj, e.idx) ∧ e.copy = none := by
    intro q e he
    simp only [machMemory, Option.map_eq_some_iff] at he
    obtain ⟨v, hv, rfl⟩ := he
    exact ⟨hv, rfl⟩
  refine ⟨⟨⟨a, ha, hbits⟩, ?_, ?_, fun _ _ hf => (by cases hf), fun _ _ hf => (by cases hf), ?_, ?_⟩,
    fun n => ⟨rfl, fun _ _ h => h, ?_, ?_⟩⟩
  · intro q e he
    have := h.inside _ _ _ (hpt q e he).1
    exact ⟨this.1, this.2.1⟩
  · intro q e he
    obtain ⟨h1, h2⟩ := hpt q e he
    exact ⟨w.objs _ _ h1, fun c hc => (by rw [h2] at hc; cases hc)⟩
  · intro q e c he hc
    rw [(hpt q e he).2] at hc; cases hc
  · intro q e he _
    exact (hpt q e he).2
  · intro q i j hq _
    refine ⟨_, by show Option.map _ (s.pt q) = _; rw [hq]; rfl, rfl, rfl, ?_, rfl, rfl, rfl, rfl⟩
    exact decide_eq_true (h.inside q i j hq).2.2
  · intro q e i he ho
    obtain ⟨h1, h2⟩ := hpt q e he
    rw [h2] at ho
    rcases ho with ho | ho
    · exact ⟨_, by rw [← ho]; exact h1⟩
    · cases ho

namespace Mach

/-- Consistent, and with the same page size. -/
def Goes (s s' : Mach) : Prop := s'.page = s.page ∧ (MachWf s → MachWf s')

theorem Goes.trans {a b c : Mach} (h : Goes a b) (g : Goes b c) : Goes a c :=
  ⟨g.1.trans h.1, fun w => g.2 (h.2 w)⟩

theorem goes_tock (s : Mach) : Goes s s.tock := ⟨rfl, fun w => ⟨w.page, w.objs, w.ports, w.entries⟩⟩

/-- Mapping a range of a new object, or of one that exists. -/
theorem goes_mapRange (s : Mach) (p n o i f : Nat) (b : Bool) (ho : MachWf s → o < f) (hf : s.fresh ≤ f) :
    Goes s { (s.tock.mapRange p n o i b) with fresh := f } := by
  refine ⟨rfl, fun w => ⟨w.page, ?_, w.ports, fun q e he => Nat.lt_of_lt_of_le (w.entries q e he) hf⟩⟩
  intro q e he
  simp only [mapRange] at he
  show e.1 < f
  split at he
  · cases he; exact ho w
  · have := w.objs q e he
    exact Nat.lt_of_lt_of_le this hf

theorem goes_anywhere (t : Target) (s : Mach) (size : Nat) : Goes s (s.vmAllocateAnywhere t size).1 := by
  unfold vmAllocateAnywhere
  simp only []
  split
  · exact goes_mapRange s _ _ _ _ _ _ (fun _ => Nat.lt_succ_self _) (Nat.le_succ _)
  · exact goes_tock s

theorem goes_fixed (t : Target) (s : Mach) (addr size : Nat) :
    Goes s (s.vmAllocateFixed t addr size).1 := by
  unfold vmAllocateFixed
  simp only []
  split
  · exact goes_mapRange s _ _ _ _ _ _ (fun _ => Nat.lt_succ_self _) (Nat.le_succ _)
  · exact goes_tock s

theorem goes_dealloc (t : Target) (s : Mach) (addr size : Nat) :
    Goes s (s.vmDeallocate t addr size).1 := by
  unfold vmDeallocate
  simp only []
  split
  · refine ⟨rfl, fun w => ⟨w.page, ?_, w.ports, w.entries⟩⟩
    intro q e he
    simp only [] at he
    split at he
    · cases he
    · exact w.objs q e he
  · exact goes_tock s

theorem goes_entry (s : Mach) (size addr : Nat) : Goes s (s.makeMemoryEntry size addr).1 := by
  unfold makeMemoryEntry
  simp only []
  split
  · rename_i e he
    split
    · refine ⟨rfl, fun w => ⟨w.page, w.objs, ?_, ?_⟩⟩
      · intro q hq
        simp only [] at hq ⊢
        rw [if_neg (by omega)]
        exact w.ports q (by omega)
      · intro q e' hq
        simp only [] at hq
        split at hq
        · cases hq; exact w.objs _ _ he
        · exact w.entries q e' hq
    · exact goes_tock s
  · exact goes_tock s

theorem goes_map (t : Target) (s : Mach) (addr size port : Nat) :
    Goes s (s.vmMap t addr size port).1 := by
  unfold vmMap
  simp only []
  split
  · rename_i e he
    split
    · exact goes_mapRange s _ _ _ _ _ _ (fun w => w.entries _ _ he) (Nat.le_refl _)
    · exact goes_tock s
  · exact goes_tock s

/-- `map_ring` keeps the task consistent. -/
theorem goes_mapRing (t : Target) (s s' : Mach) (len : Nat) (r : Result Nat)
    (h : s.mapRing t len = .ok (s', r)) : Goes s s' := by
  simp only [mapRing, bind, Except.bind] at h
  split at h
  · cases h
  rename_i full hm
  have g1 := goes_anywhere t s full
  generalize s.vmAllocateAnywhere t full = x at h g1
  obtain ⟨s1, r1⟩ := x
  cases r1 with
  | error e => cases h; exact g1
  | ok addr =>
    simp only [] at h
    have g2 := g1.trans (goes_fixed t s1 addr len)
    generalize s1.vmAllocateFixed t addr len = x at h g2
    obtain ⟨s2, r2⟩ := x
    cases r2 with
    | error e => cases h; exact g2.trans (goes_dealloc t s2 addr full)
    | ok u =>
      simp only [] at h
      have g3 := g2.trans (goes_entry s2 len addr)
      generalize s2.makeMemoryEntry len addr = x at h g3
      obtain ⟨s3, r3⟩ := x
      cases r3 with
      | error e => cases h; exact g3.trans (goes_dealloc t s3 addr full)
      | ok lp =>
        obtain ⟨len2, port⟩ := lp
        simp only [] at h
        split at h
        · cases h
        rename_i half ha
        have g4 := g3.trans (goes_map t s3 half len2 port)
        generalize s3.vmMap t half len2 port = x at h g4
        obtain ⟨s4, r4⟩ := x
        cases r4 with
        | error e =>
          simp only [] at h
          split at h
          · cases h
          · rename_i full2 _
            cases h; exact g4.trans (goes_dealloc t s4 addr full2)
        | ok u => cases h; exact g4

/-- A ring of no bytes, or of half the address space or more, is never created. -/
theorem mapRing_bad {t : Target} {s s' : Mach} {n addr : Nat} (hp : 0 < s.page)
    (hb : n = 0 ∨ t.lim ≤ 2 * (n * s.page)) : s.mapRing t (n * s.page) ≠ .ok (s', .ok addr) := by
  intro h
  simp only [mapRing, bind, Except.bind] at h
  split at h
  · cases h
  rename_i full hm
  have g1 := goes_anywhere t s full
  generalize s.vmAllocateAnywhere t full = x at h g1
  obtain ⟨s1, r1⟩ := x
  cases r1 with
  | error e => cases h
  | ok a =>
    simp only [] at h
    have g2 := g1.trans (goes_fixed t s1 a (n * s.page))
    have hfix : ∀ s2 u, s1.vmAllocateFixed t a (n * s.page) = (s2, .ok u) → a + n * s.page < t.lim := by
      intro s2 u hx
      unfold vmAllocateFixed at hx
      simp only [] at hx
      split at hx
      · rename_i hc; exact hc.2.2
      · cases hx
    generalize s1.vmAllocateFixed t a (n * s.page) = x at h g2 hfix
    obtain ⟨s2, r2⟩ := x
    cases r2 with
    | error e => cases h
    | ok u =>
      simp only [] at h
      have hlt := hfix s2 u rfl
      have hent : ∀ s3 len2 port, s2.makeMemoryEntry (n * s.page) a = (s3, .ok (len2, port)) →
          len2 = n * s.page ∧ n ≠ 0 := by
        intro s3 len2 port hx
        unfold makeMemoryEntry at hx
        simp only [] at hx
        split at hx
        · split at hx
          · rename_i hc
            cases hx
            have : s2.pages (n * s.page) = n := by rw [← g2.1]; exact pages_mul (by rw [g2.1]; exact hp) n
            refine ⟨by rw [this, g2.1], ?_⟩
            rintro rfl
            exact hc.2 (Nat.zero_mul _)
          · cases hx
        · cases hx
      generalize s2.makeMemoryEntry (n * s.page) a = x at h hent
      obtain ⟨s3, r3⟩ := x
      cases r3 with
      | error e => cases h
      | ok lp =>
        obtain ⟨len2, port⟩ := lp
        obtain ⟨this, hn0⟩ := hent _ _ _ rfl
        subst this
        simp only [addU, addL, if_pos hlt] at h
        have hmap : ∀ s4 u, s3.vmMap t (a + n * s.page) (n * s.page) port = (s4, .ok u) →
            a + n * s.page + n * s.page < t.lim := by
          intro s4 u hx
          unfold vmMap at hx
          simp only [] at hx
          split at hx
          · split at hx
            · rename_i hc; exact hc.2.2
            · cases hx
          · cases hx
        generalize s3.vmMap t (a + n * s.page) (n * s.page) port = x at h hmap
        obtain ⟨s4, r4⟩ := x
        cases r4 with
        | error e =>
          simp only [] at h
          split at h
          · cases h
          · cases h
        | ok u =>
          have := hmap s4 u rfl
          omega

end Mach

namespace Win

/-- A view larger than its section is refused. -/
theorem view_big {t : Target} (s : Vmap.Win) {h : Nat} {sec : Section} (hs : s.handles h = some sec)
    (op : Operation) (access : WinAccess) {len : Nat} (at' : Nat) (hb : sec.size < len) :
    ∃ e, s.view t h op access 0 len at' =
      .ok (s.did (.mapViewOfFileEx h access 0 0 len at'), .error (Error.lastOsError op e)) := by
  rcases view_cases (t := t) s hs op access (off := 0) len at' t.lim_pos with h | h
  · exact h
  · obtain ⟨base, n, -, hn, -, -, h5, -⟩ := h
    rw [if_neg (by omega)] at hn
    omega

theorem reserve_handles {t : Target} (s : Vmap.Win) (len : Nat) :
    (s.reserve t len).1.handles = s.handles := by
  unfold reserve virtualAlloc
  split <;> (rename_i h; simp only [] at h; split at h <;> cases h <;> rfl)

/-- The loop never succeeds if the section is too small. -/
theorem mapRingLoop_big {t : Target} {h : Nat} {sec : Section} {len full : Nat}
    (hb : sec.size < len) (left : Nat) : ∀ {s : Vmap.Win}, s.handles h = some sec →
    ∃ s' e, mapRingLoop t left s h len full = .ok (s', .error e) := by
  induction left with
  | zero =>
    intro s hs
    rw [mapRingLoop]
    have hr := reserve_handles (t := t) s full
    generalize s.reserve t full = x at hr
    obtain ⟨s1, r⟩ := x
    cases r with
    | error e => exact ⟨_, _, rfl⟩
    | ok pg =>
      obtain ⟨e, he⟩ := view_big (t := t) s1 (h := h) (by rw [hr]; exact hs) .ringPrimary
        { read := true, write := true } (len := len) pg hb
      simp only [mapRingHandle, bind, Except.bind, he, pure, Except.pure]
      exact ⟨_, _, rfl⟩
  | succ left ih =>
    intro s hs
    rw [mapRingLoop]
    have hr := reserve_handles (t := t) s full
    generalize s.reserve t full = x at hr
    obtain ⟨s1, r⟩ := x
    cases r with
    | error e => exact ⟨_, _, rfl⟩
    | ok pg =>
      have hs1 : s1.handles h = some sec := by rw [hr]; exact hs
      obtain ⟨e, he⟩ := view_big (t := t) s1 (h := h) hs1 .ringPrimary
        { read := true, write := true } (len := len) pg hb
      simp only [mapRingHandle, bind, Except.bind, he, pure, Except.pure]
      exact ih hs1

/-- A ring of no bytes, or of half the address space and more, is never created. -/
theorem mapRing_bad {t : Target} (s : Vmap.Win) {len : Nat} (hlen : len < t.lim)
    (hb : len = 0 ∨ t.lim ≤ 2 * len) {s' : Vmap.Win} {pg : Nat} :
    s.mapRing t len ≠ .ok (s', .ok pg) := by
  intro hc
  simp only [mapRing, bind, Except.bind] at hc
  split at hc
  · cases hc
  rename_i full hm
  have hfull : full < t.lim ∧ (full = 0 ∨ full < len) := by
    simp only [mulU, mulL] at hm
    have h0 := t.lim_pos
    split at hm
    · cases hm
      exact ⟨by omega, .inl (by omega)⟩
    · split at hm
      · cases hm
      · cases hm
        have : 2 * len % t.lim = 2 * len - t.lim := by
          rw [Nat.mod_eq_sub_mod (by omega), Nat.mod_eq_of_lt (by omega)]
        omega
  rcases handleNew_cases (t := t) s .ringAllocate none .readwrite hfull.1 with ⟨e, he⟩ | ⟨size, h1, h2, -, he⟩
  · rw [he] at hc
    cases hc
  · rw [he] at hc
    simp only [] at hc
    have := h2 rfl
    generalize hs1 : ({ s.did (.createFileMapping none .readwrite (full / 2 ^ 32) (full % 2 ^ 32)) with
      handles := fun h => if h = s.next then some ⟨s.next, none, .readwrite, size⟩ else s.handles h
      next := s.next + 1
      bytes := s.bytes.newSection s.next } : Vmap.Win) = s1 at hc
    obtain ⟨s2, e, hl⟩ := mapRingLoop_big (t := t) (h := s.next) (sec := ⟨s.next, none, .readwrite, size⟩)
      (len := len) (full := full) (by show size < len; omega) 5 (s := s1) (by rw [← hs1]; exact if_pos rfl)
    rw [hl] at hc
    simp only [pure, Except.pure] at hc
    injection hc with hc
    injection hc with _ hc
    cases hc

end Win
end Vmap
