import Verif.Model.Ring
import Verif.Props.RingMap
/- Helper lemmas: the rings of macOS and iOS on the common kernel state. -/
namespace Vmap
open Kernel Spec

/-- `t.lim` is a multiple of the page size and so on: pages of `2 * (n * page)` bytes. -/
theorem Kernel.pages_of {k : Kernel} (hp : 0 < k.page) (n : Nat) : k.pages (n * k.page) = n := by
  have := pages_mul (k := k) hp (len := n * k.page) (Nat.dvd_mul_left _ _)
  exact Nat.eq_of_mul_eq_mul_right hp this

/-- Giving back a range that was free before. -/
theorem Darwin.back {t : Target} {k k3 : Kernel} (w3 : Wf t k3) {p n : Nat} (hpp : 0 < k.page)
    (kp : KeepsObjects k k3) (fd : k3.fds = k.fds) (hfit : (p + 2 * n) * k.page < t.lim)
    (hfree : ∀ q, p ≤ q → q < p + 2 * n → k.pt q = none)
    (hout : ∀ q, ¬ (p ≤ q ∧ q < p + 2 * n) → k3.pt q = k.pt q) :
    SameWorld k (k3.vmDeallocate t (p * k.page) (2 * (n * k.page))).1 ∧
    Wf t (k3.vmDeallocate t (p * k.page) (2 * (n * k.page))).1 ∧
    (k3.vmDeallocate t (p * k.page) (2 * (n * k.page))).1.log =
      ⟨.vmDeallocate (p * k.page) (2 * (n * k.page)), .ok 0⟩ :: k3.log ∧
    (k3.vmDeallocate t (p * k.page) (2 * (n * k.page))).1.ports = k3.ports := by
  have hpg : k3.page = k.page := kp.page
  have hl : p * k.page + 2 * (n * k.page) < t.lim := by
    rw [← Nat.mul_assoc, ← Nat.add_mul]; exact hfit
  have hdiv : p * k.page / k3.tock.page = p := by
    show p * k.page / k3.page = p
    rw [hpg]; exact Nat.mul_div_cancel _ hpp
  have hn : k3.tock.pages (2 * (n * k.page)) = 2 * n := by
    have := pages_of (k := k3.tock) (by show 0 < k3.page; rw [hpg]; exact hpp) (2 * n)
    rw [show k3.tock.page = k.page from hpg, Nat.mul_assoc] at this
    exact this
  have he : k3.vmDeallocate t (p * k.page) (2 * (n * k.page)) =
      ({ k3.tock.clearRange p (2 * n) with
          log := ⟨.vmDeallocate (p * k.page) (2 * (n * k.page)), .ok 0⟩ :: k3.log }, .ok ()) := by
    simp only [vmDeallocate, record, vmDeallocateCore, if_pos hl, hdiv, hn]
    rfl
  rw [he]
  refine ⟨⟨⟨kp.page, kp.data, kp.size, kp.disk, kp.names, kp.fresh, kp.nextFd, kp.oracle⟩, ?_, fd⟩, ?_,
    rfl, rfl⟩
  · funext q
    show (if p ≤ q ∧ q < p + 2 * n then none else k3.pt q) = k.pt q
    split
    · rename_i h; exact (hfree q h.1 h.2).symm
    · rename_i h; exact hout q h
  · refine w3.sub rfl ?_ (fun _ _ h => h) (fun _ _ h => h) (Nat.le_refl _) (Nat.le_refl _)
    intro q e hq
    have hq : (if p ≤ q ∧ q < p + 2 * n then none else k3.pt q) = some e := hq
    split at hq
    · cases hq
    · exact hq

/-- The state after a call that changes nothing. -/
def Darwin.idle (k : Kernel) (ev : Event) : Kernel := { k with tick := k.tick + 1, log := ev :: k.log }

/-- The state after mapping new memory at pages `p ..< p + n`. -/
def Darwin.fill (k : Kernel) (p n : Nat) (ev : Event) : Kernel :=
  { (k.newObj (n * k.page)).mapRange p n k.fresh 0 Unix.protRW true true with
    tick := k.tick + 1, log := ev :: k.log }

theorem Darwin.idle_same {t : Target} {k : Kernel} (h : Wf t k) (ev : Event) :
    SameWorld k (idle k ev) ∧ Wf t (idle k ev) :=
  ⟨⟨⟨rfl, fun _ _ => rfl, fun _ _ => rfl, fun _ _ => rfl, rfl, Nat.le_refl _, Nat.le_refl _, rfl⟩, rfl, rfl⟩,
    h.sub rfl (fun _ _ h => h) (fun _ _ h => h) (fun _ _ h => h) (Nat.le_refl _) (Nat.le_refl _)⟩

theorem Darwin.fill_keeps (k : Kernel) (p n : Nat) (ev : Event) : KeepsObjects k (fill k p n ev) := by
  refine ⟨rfl, ?_, ?_, fun _ _ => rfl, rfl, Nat.le_succ _, Nat.le_refl _, rfl⟩
  · intro o ho
    funext i
    show (if o = k.fresh then 0 else k.data o i) = k.data o i
    rw [if_neg (by omega)]
  · intro o ho
    show (if o = k.fresh then n * k.page else k.size o) = k.size o
    rw [if_neg (by omega)]

theorem Darwin.fill_wf {t : Target} {k : Kernel} (h : Wf t k) {p n : Nat} (hp0 : p ≠ 0)
    (hfit : (p + n) * k.page < t.lim) (ev : Event) : Wf t (fill k p n ev) :=
  h.mapped (k' := fill k p n ev) (p := p) (n := n) (o := k.fresh) (idx := 0) (prot := Unix.protRW)
    (sh := true) (mw := true) rfl rfl rfl rfl (Nat.le_succ _) rfl (Nat.lt_succ_self _) h.fresh_ne hp0 hfit

theorem Kernel.keeps_trans {k k1 k2 : Kernel} (a : KeepsObjects k k1) (b : KeepsObjects k1 k2) :
    KeepsObjects k k2 := by
  have := a.fresh
  exact ⟨b.page.trans a.page, fun o ho => (b.data o (by omega)).trans (a.data o ho),
    fun o ho => (b.size o (by omega)).trans (a.size o ho),
    fun o ho => (b.disk o (by omega)).trans (a.disk o ho), b.names.trans a.names,
    Nat.le_trans a.fresh b.fresh, Nat.le_trans a.nextFd b.nextFd, b.oracle.trans a.oracle⟩

theorem Darwin.vmAllocate_cases (t : Target) (k : Kernel) {n : Nat} (hp : 0 < k.page) :
    (∃ e, k.vmAllocate t (n * k.page) =
      (idle k ⟨.vmAllocate (n * k.page), .error e⟩, .error e)) ∨
    (∃ p, p ≠ 0 ∧ (p + n) * k.page < t.lim ∧ (∀ q, p ≤ q → q < p + n → k.pt q = none) ∧
      k.vmAllocate t (n * k.page) =
        (fill k p n ⟨.vmAllocate (n * k.page), .ok (p * k.page)⟩, .ok (p * k.page))) := by
  have hn : k.tock.pages (n * k.page) = n := pages_of (k := k.tock) hp n
  by_cases c : k.now.ok = true ∧ k.now.page ≠ 0 ∧ (k.now.page + n) * k.tock.page < t.lim ∧
      k.tock.rangeFree k.now.page n = true
  · have e : vmAllocateCore t k (n * k.page) =
        ((k.tock.newObj (n * k.tock.page)).mapRange k.now.page n k.tock.fresh 0 Unix.protRW true true,
          .ok (k.now.page * k.tock.page)) := by
      unfold vmAllocateCore
      simp only [hn]
      exact if_pos c
    refine .inr ⟨k.now.page, c.2.1, c.2.2.1, fun q h1 h2 => rangeFree_iff.mp c.2.2.2 q h1 h2, ?_⟩
    simp only [vmAllocate, record, e]
    rfl
  · have e : vmAllocateCore t k (n * k.page) = (k.tock, .error (k.now.errno + 1)) := by
      unfold vmAllocateCore
      simp only [hn]
      exact if_neg c
    refine .inl ⟨k.now.errno + 1, ?_⟩
    simp only [vmAllocate, record, e]
    rfl

theorem Darwin.vmAllocateAt_cases (t : Target) (k : Kernel) {p n : Nat} (hp : 0 < k.page) :
    (∃ e, k.vmAllocateAt t (p * k.page) (n * k.page) =
      (idle k ⟨.vmAllocateAt (p * k.page) (n * k.page), .error e⟩, .error e)) ∨
    k.vmAllocateAt t (p * k.page) (n * k.page) =
        (fill k p n ⟨.vmAllocateAt (p * k.page) (n * k.page), .ok 0⟩, .ok ()) := by
  have hn : k.tock.pages (n * k.page) = n := pages_of (k := k.tock) hp n
  have hd : p * k.page / k.tock.page = p := Nat.mul_div_cancel _ hp
  by_cases c : k.now.ok = true ∧ p * k.page % k.tock.page = 0 ∧ p * k.page + n * k.page < t.lim
  · have e : vmAllocateAtCore t k (p * k.page) (n * k.page) =
        ((k.tock.newObj (n * k.tock.page)).mapRange p n k.tock.fresh 0 Unix.protRW true true, .ok ()) := by
      unfold vmAllocateAtCore
      simp only [hn, hd]
      exact if_pos c
    refine .inr ?_
    simp only [vmAllocateAt, record, e]
    rfl
  · have e : vmAllocateAtCore t k (p * k.page) (n * k.page) = (k.tock, .error (k.now.errno + 1)) := by
      unfold vmAllocateAtCore
      simp only [hn, hd]
      exact if_neg c
    refine .inl ⟨k.now.errno + 1, ?_⟩
    simp only [vmAllocateAt, record, e]
    rfl

theorem Darwin.memoryEntry_cases (k : Kernel) {p n : Nat} (hp : 0 < k.page) :
    (∃ e, k.memoryEntry (n * k.page) (p * k.page) =
      (idle k ⟨.memoryEntry (p * k.page) (n * k.page), .error e⟩, .error e)) ∨
    (∃ e, k.pt p = some e ∧ 0 < n ∧ k.memoryEntry (n * k.page) (p * k.page) =
        ({ idle k ⟨.memoryEntry (p * k.page) (n * k.page), .ok k.ports.length⟩ with
            ports := k.ports ++ [(e.obj, e.idx)] }, .ok (n * k.page, k.ports.length))) := by
  have hn : k.tock.pages (n * k.page) = n := pages_of (k := k.tock) hp n
  have hd : p * k.page / k.tock.page = p := Nat.mul_div_cancel _ hp
  cases he : k.pt p with
  | none =>
    have he' : k.tock.pt p = none := he
    refine .inl ⟨k.now.errno + 1, ?_⟩
    have e : memoryEntryCore k (n * k.page) (p * k.page) = (k.tock, .error (k.now.errno + 1)) := by
      unfold memoryEntryCore
      simp only [hd, he']
    simp only [memoryEntry, record, e]
    rfl
  | some x =>
    have he' : k.tock.pt p = some x := he
    by_cases c : k.now.ok = true ∧ n * k.page ≠ 0
    · have e : memoryEntryCore k (n * k.page) (p * k.page) =
          ({ k.tock with ports := k.tock.ports ++ [(x.obj, x.idx)] }, .ok (n * k.tock.page, k.tock.ports.length)) := by
        unfold memoryEntryCore
        simp only [hd, he', hn]
        exact if_pos c
      refine .inr ⟨x, rfl, Nat.pos_of_ne_zero (fun h => c.2 (by rw [h, Nat.zero_mul])), ?_⟩
      simp only [memoryEntry, record, e]
      rfl
    · have e : memoryEntryCore k (n * k.page) (p * k.page) = (k.tock, .error (k.now.errno + 1)) := by
        unfold memoryEntryCore
        simp only [hd, he', hn]
        exact if_neg c
      refine .inl ⟨k.now.errno + 1, ?_⟩
      simp only [memoryEntry, record, e]
      rfl

theorem Darwin.vmMap_cases (t : Target) (k : Kernel) {p n port : Nat} {x : Nat × Nat}
    (hp : 0 < k.page) (hx : k.ports[port]? = some x) :
    (∃ e, k.vmMap t (p * k.page) (n * k.page) port =
      (idle k ⟨.vmMap (p * k.page) (n * k.page) port, .error e⟩, .error e)) ∨
    k.vmMap t (p * k.page) (n * k.page) port =
        ({ k.mapRange p n x.1 x.2 Unix.protRW true true with
            tick := k.tick + 1
            log := ⟨.vmMap (p * k.page) (n * k.page) port, .ok 0⟩ :: k.log }, .ok ()) := by
  have hn : k.tock.pages (n * k.page) = n := pages_of (k := k.tock) hp n
  have hd : p * k.page / k.tock.page = p := Nat.mul_div_cancel _ hp
  have hx' : k.tock.ports[port]? = some x := hx
  by_cases c : k.now.ok = true ∧ p * k.page % k.tock.page = 0 ∧ p * k.page + n * k.page < t.lim
  · have e : vmMapCore t k (p * k.page) (n * k.page) port =
        (k.tock.mapRange p n x.1 x.2 Unix.protRW true true, .ok ()) := by
      unfold vmMapCore
      simp only [hn, hd, hx']
      exact if_pos c
    refine .inr ?_
    simp only [vmMap, record, e]
    rfl
  · have e : vmMapCore t k (p * k.page) (n * k.page) port = (k.tock, .error (k.now.errno + 1)) := by
      unfold vmMapCore
      simp only [hn, hd, hx']
      exact if_neg c
    refine .inl ⟨k.now.errno + 1, ?_⟩
    simp only [vmMap, record, e]
    rfl

/-- All outcomes of `map_ring` of macOS for whole pages of which twice as many fit the address space. -/
theorem Darwin.mapRing_cases {t : Target} {k : Kernel} (h : Wf t k) {n : Nat}
    (hl : 2 * (n * k.page) < t.lim) :
    (∃ k' err l, mapRing t k (n * k.page) = .ok (k', .error err) ∧ SameWorld k k' ∧ Wf t k' ∧
      k'.log = l ++ k.log ∧ DarwinTrace (n * k.page) l err ∧
      (k'.ports = k.ports ∨ ∃ e, k'.ports = k.ports ++ [e])) ∨
    (∃ k' p o, mapRing t k (n * k.page) = .ok (k', .ok (p * k.page)) ∧ Wf t k' ∧
      KeepsObjects k k' ∧ k'.fds = k.fds ∧ 0 < n ∧ p ≠ 0 ∧ (p + 2 * n) * k.page < t.lim ∧
      (∀ q, p ≤ q → q < p + 2 * n → k.pt q = none) ∧
      k'.pt = Posix.ringPt k.pt p n o ∧ k.fresh ≤ o ∧ o < k'.fresh ∧
      k'.size o = n * k.page ∧ (∀ i, k'.data o i = 0) ∧ k'.ports = k.ports ++ [(o, 0)] ∧
      k'.log = [⟨.vmMap (p * k.page + n * k.page) (n * k.page) k.ports.length, .ok 0⟩,
        ⟨.memoryEntry (p * k.page) (n * k.page), .ok k.ports.length⟩,
        ⟨.vmAllocateAt (p * k.page) (n * k.page), .ok 0⟩,
        ⟨.vmAllocate (2 * (n * k.page)), .ok (p * k.page)⟩] ++ k.log) := by
  have hpp := h.page_pos
  have hmul : mulU t 2 (n * k.page) = .ok (2 * (n * k.page)) := Posix.mulU_ok hl
  have ha : 2 * (n * k.page) = (2 * n) * k.page := (Nat.mul_assoc _ _ _).symm
  -- reservation
  rcases vmAllocate_cases t k (n := 2 * n) hpp with ⟨e, e1⟩ | ⟨p, hp0, hfit, hfree, e1⟩
  · rw [← ha] at e1
    obtain ⟨s1, s2⟩ := idle_same h ⟨.vmAllocate (2 * (n * k.page)), .error e⟩
    refine .inl ⟨_, _, [⟨.vmAllocate (2 * (n * k.page)), .error e⟩], ?_, s1, s2, rfl, .reserve e, .inl rfl⟩
    simp only [mapRing, hmul, bind, Except.bind, e1]
    rfl
  rw [← ha] at e1
  generalize hk1 : fill k p (2 * n) ⟨.vmAllocate (2 * (n * k.page)), .ok (p * k.page)⟩ = k1 at e1
  have w1 : Wf t k1 := hk1 ▸ fill_wf h hp0 hfit _
  have p1 : k1.page = k.page := hk1 ▸ rfl
  have kp1 : KeepsObjects k k1 := hk1 ▸ fill_keeps _ _ _ _
  have fd1 : k1.fds = k.fds := hk1 ▸ rfl
  have lg1 : k1.log = ⟨.vmAllocate (2 * (n * k.page)), .ok (p * k.page)⟩ :: k.log := hk1 ▸ rfl
  have po1 : k1.ports = k.ports := hk1 ▸ rfl
  have out1 : ∀ q, ¬ (p ≤ q ∧ q < p + 2 * n) → k1.pt q = k.pt q := by
    intro q hq; rw [← hk1]; exact if_neg hq
  have fr1 : k1.fresh = k.fresh + 1 := hk1 ▸ rfl
  have hhalf : (p + n) * k.page < t.lim :=
    Nat.lt_of_le_of_lt (Nat.mul_le_mul_right _ (by omega)) hfit
  -- first half
  rcases vmAllocateAt_cases t k1 (p := p) (n := n) (by omega) with ⟨e, e2⟩ | e2
  · rw [p1] at e2
    obtain ⟨s1, s2⟩ := idle_same w1 ⟨.vmAllocateAt (p * k.page) (n * k.page), .error e⟩
    obtain ⟨b1, b2, b3, b4⟩ := back (k := k) s2 (p := p) (n := n) hpp (keeps_trans kp1 s1.toKeepsObjects)
      (s1.fds.trans fd1) hfit hfree (fun q hq => (congrFun s1.pt q).trans (out1 q hq))
    refine .inl ⟨_, _, _, ?_, b1, b2, b3.trans ?_, .primary (p * k.page) e, .inl (b4.trans po1)⟩
    · simp only [mapRing, hmul, bind, Except.bind, e1, e2]
      rfl
    · show _ :: _ :: k1.log = _
      rw [lg1]; rfl
  rw [p1] at e2
  generalize hk2 : fill k1 p n ⟨.vmAllocateAt (p * k.page) (n * k.page), .ok 0⟩ = k2 at e2
  have w2 : Wf t k2 := hk2 ▸ fill_wf w1 hp0 (by rw [p1]; exact hhalf) _
  have p2 : k2.page = k.page := by rw [← hk2]; exact p1
  have kp2 : KeepsObjects k k2 := keeps_trans kp1 (hk2 ▸ fill_keeps _ _ _ _)
  have fd2 : k2.fds = k.fds := by rw [← hk2]; exact fd1
  have lg2 : k2.log = ⟨.vmAllocateAt (p * k.page) (n * k.page), .ok 0⟩ ::
      ⟨.vmAllocate (2 * (n * k.page)), .ok (p * k.page)⟩ :: k.log := by rw [← hk2, ← lg1]; rfl
  have po2 : k2.ports = k.ports := by rw [← hk2]; exact po1
  have in2 : ∀ q, p ≤ q ∧ q < p + n → k2.pt q =
      some ⟨k1.fresh, 0 + (q - p), Unix.protRW, true, true, none, false⟩ := by
    intro q hq; rw [← hk2]; exact if_pos hq
  have out2 : ∀ q, ¬ (p ≤ q ∧ q < p + 2 * n) → k2.pt q = k.pt q := by
    intro q hq
    rw [← out1 q hq, ← hk2]; exact if_neg (by omega)
  have fr2 : k2.fresh = k1.fresh + 1 := hk2 ▸ rfl
  have sz2 : k2.size k1.fresh = n * k.page := by
    rw [← hk2, ← p1]; exact if_pos rfl
  have dt2 : ∀ i, k2.data k1.fresh i = 0 := by
    intro i; rw [← hk2]; exact if_pos rfl
  -- the port right
  rcases memoryEntry_cases k2 (p := p) (n := n) (by omega) with ⟨e, e3⟩ | ⟨x, hx, hn0, e3⟩
  · rw [p2] at e3
    obtain ⟨s1, s2⟩ := idle_same w2 ⟨.memoryEntry (p * k.page) (n * k.page), .error e⟩
    obtain ⟨b1, b2, b3, b4⟩ := back (k := k) s2 (p := p) (n := n) hpp (keeps_trans kp2 s1.toKeepsObjects)
      (s1.fds.trans fd2) hfit hfree (fun q hq => (congrFun s1.pt q).trans (out2 q hq))
    refine .inl ⟨_, _, _, ?_, b1, b2, b3.trans ?_, .entry (p * k.page) e, .inl (b4.trans po2)⟩
    · simp only [mapRing, hmul, bind, Except.bind, e1, e2, e3]
      rfl
    · show _ :: _ :: k2.log = _
      rw [lg2]; rfl
  rw [p2, po2] at e3
  rw [in2 p (by omega)] at hx
  injection hx with hx
  subst hx
  dsimp only at e3
  rw [Nat.sub_self, Nat.add_zero] at e3
  generalize hk3 : ({ idle k2 ⟨.memoryEntry (p * k.page) (n * k.page), .ok k.ports.length⟩ with
            ports := k.ports ++ [(k1.fresh, 0)] } : Kernel) = k3 at e3
  have w3 : Wf t k3 := by
    rw [← hk3]
    exact w2.sub rfl (fun _ _ h => h) (fun _ _ h => h) (fun _ _ h => h) (Nat.le_refl _) (Nat.le_refl _)
  have p3 : k3.page = k.page := by rw [← hk3]; exact p2
  have kp3 : KeepsObjects k k3 := keeps_trans kp2 (by
    rw [← hk3]
    exact ⟨rfl, fun _ _ => rfl, fun _ _ => rfl, fun _ _ => rfl, rfl, Nat.le_refl _, Nat.le_refl _, rfl⟩)
  have fd3 : k3.fds = k.fds := by rw [← hk3]; exact fd2
  have lg3 : k3.log = ⟨.memoryEntry (p * k.page) (n * k.page), .ok k.ports.length⟩ ::
      ⟨.vmAllocateAt (p * k.page) (n * k.page), .ok 0⟩ ::
      ⟨.vmAllocate (2 * (n * k.page)), .ok (p * k.page)⟩ :: k.log := by rw [← hk3, ← lg2]; rfl
  have po3 : k3.ports = k.ports ++ [(k1.fresh, 0)] := hk3 ▸ rfl
  have pt3 : k3.pt = k2.pt := hk3 ▸ rfl
  have hadd : addU t (p * k.page) (n * k.page) = .ok ((p + n) * k.page) := by
    rw [Nat.add_mul]
    simp only [addU, addL]
    rw [if_pos (by rw [← Nat.add_mul]; exact hhalf)]
  have hport : k3.ports[k.ports.length]? = some (k1.fresh, 0) := by
    rw [po3]; simp
  -- second half
  rcases vmMap_cases t k3 (p := p + n) (n := n) (by omega) hport with ⟨e, e4⟩ | e4
  · rw [p3] at e4
    obtain ⟨s1, s2⟩ := idle_same w3 ⟨.vmMap ((p + n) * k.page) (n * k.page) k.ports.length, .error e⟩
    obtain ⟨b1, b2, b3, b4⟩ := back (k := k) s2 (p := p) (n := n) hpp (keeps_trans kp3 s1.toKeepsObjects)
      (s1.fds.trans fd3) hfit hfree
      (fun q hq => (congrFun s1.pt q).trans ((congrFun pt3 q).trans (out2 q hq)))
    refine .inl ⟨_, _, _, ?_, b1, b2, b3.trans ?_, .secondary (p * k.page) e k.ports.length,
      .inr ⟨_, b4.trans po3⟩⟩
    · simp only [mapRing, hmul, bind, Except.bind, e1, e2, e3, hadd, e4]
      rfl
    · show _ :: _ :: k3.log = _
      rw [lg3, Nat.add_mul]; rfl
  rw [p3] at e4
  refine .inr ⟨{ k3.mapRange (p + n) n k1.fresh 0 Unix.protRW true true with
            tick := k3.tick + 1
            log := ⟨.vmMap ((p + n) * k.page) (n * k.page) k.ports.length, .ok 0⟩ :: k3.log },
    p, k1.fresh, ?_, ?_, ?_, fd3, hn0, hp0, hfit, hfree, ?_, ?_, ?_, ?_, ?_, po3, ?_⟩
  · simp only [mapRing, hmul, bind, Except.bind, e1, e2, e3, hadd, e4]
    rfl
  · refine w3.mapped (p := p + n) (n := n) (o := k1.fresh) (idx := 0) (prot := Unix.protRW)
      (sh := true) (mw := true) rfl rfl rfl rfl (Nat.le_refl _) rfl ?_ ?_ (by omega) ?_
    · show k1.fresh < k3.fresh
      rw [← hk3]; show k1.fresh < k2.fresh; omega
    · intro q x c hq hc
      rw [pt3] at hq
      by_cases hin : p ≤ q ∧ q < p + n
      · rw [in2 q hin] at hq
        injection hq with hq
        subst hq
        cases hc
      · have : k1.pt q = some x := by
          rw [← hq, ← hk2]; exact (if_neg hin).symm
        have := (w1.objs q x this).2 c hc
        omega
    · rw [p3]
      rw [show p + n + n = p + 2 * n by omega]
      exact hfit
  · exact keeps_trans kp3 ⟨rfl, fun _ _ => rfl, fun _ _ => rfl, fun _ _ => rfl, rfl, Nat.le_refl _,
      Nat.le_refl _, rfl⟩
  · funext q
    show (if p + n ≤ q ∧ q < p + n + n then _ else k3.pt q) = if p ≤ q ∧ q < p + 2 * n then _ else k.pt q
    rw [pt3]
    by_cases h1 : p + n ≤ q ∧ q < p + n + n
    · rw [if_pos h1, if_pos (by omega)]
      have : (q - p) % n = 0 + (q - (p + n)) := by
        rw [show q - p = (q - (p + n)) + n by omega, Nat.add_mod_right, Nat.mod_eq_of_lt (by omega)]
        omega
      rw [this]
    · rw [if_neg h1]
      by_cases h2 : p ≤ q ∧ q < p + n
      · rw [if_pos (by omega), in2 q h2, Nat.mod_eq_of_lt (by omega)]
        simp
      · rw [if_neg (by omega), out2 q (by omega)]
  · omega
  · show k1.fresh < k3.fresh
    rw [← hk3]; show k1.fresh < k2.fresh; omega
  · show k3.size k1.fresh = _
    rw [← sz2, ← hk3]; rfl
  · intro i
    show k3.data k1.fresh i = 0
    rw [← dt2 i, ← hk3]; rfl
  · show _ :: k3.log = _
    rw [lg3, Nat.add_mul]; rfl

/-- All outcomes of rounding a capacity up and mapping a ring of that size, on any Unix. -/
theorem Os.mapRing_good {t : Target} {k : Kernel} (h : Wf t k) {hint : Nat} (hf : RingFits t k hint) :
    ∃ len k' res, (Size.withSize k.page).round t hint = .ok len ∧ Os.mapRing t k len = .ok (k', res) ∧
      (∀ e, res = .error e → SameWorld k k' ∧ Wf t k') ∧
      (∀ p, res = .ok p → Made t k k' hint p len) := by
  obtain ⟨s, hs, hs2⟩ := h.page
  have hu := Nat.two_pow_pos s
  have hr : (Size.withSize k.page).round t hint = .ok ((hint + k.page - 1) / k.page * k.page) := by
    have := hf.1
    rw [hs] at this ⊢
    exact round_eq (by omega) this
  have hh : hint < t.lim := Nat.lt_of_le_of_lt (Nat.le_add_right _ _) hf.1
  refine ⟨(hint + k.page - 1) / k.page * k.page, ?_⟩
  by_cases hm : k.mach = true
  · have hl : 2 * ((hint + k.page - 1) / k.page * k.page) < t.lim := by
      have := hf.2 hm
      have := Nat.div_mul_le_self (hint + k.page - 1) k.page
      have := h.page_pos
      omega
    obtain ⟨hcap, -⟩ := newRing_cases h hh hr
    rcases Darwin.mapRing_cases h hl with ⟨k1, err, l, he, a1, a2, -⟩ |
      ⟨k1, p, o, he, w, kp, fd, hn0, hp0, hfit, hfree, hpt, hlo, hfr, hsz, hz, -⟩
    · refine ⟨k1, .error err, hr, by simp only [Os.mapRing, if_pos hm, he], fun _ _ => ⟨a1, a2⟩,
        fun _ h => by cases h⟩
    · refine ⟨k1, .ok (p * k.page), hr, by simp only [Os.mapRing, if_pos hm, he], (fun _ h => by cases h), ?_⟩
      intro q hq
      injection hq with hq
      subst hq
      exact made_of_ringPt h hcap w kp fd rfl hn0 (Nat.le_of_lt hfit) hfree hpt hlo hfr hsz hz
  · have e : ∀ len, Os.mapRing t k len = Posix.mapRing t k len := fun len => if_neg hm
    obtain ⟨-, hdvd⟩ := newRing_cases h hh hr
    rcases Posix.mapRing_cases h hdvd with ⟨k1, err, l, he, a1, a2, -⟩ | ⟨k1, p, n, he, -⟩
    · exact ⟨k1, .error err, hr, (e _).trans he, fun _ _ => ⟨a1, a2⟩, fun _ h => by cases h⟩
    · refine ⟨k1, .ok (p * k.page), hr, (e _).trans he, (fun _ h => by cases h), ?_⟩
      intro q hq
      injection hq with hq
      subst hq
      exact made_of_mapRing h hh hr he

/-- All outcomes of `Ring::new`, on any Unix. -/
theorem Ring.make_good {t : Target} {k : Kernel} (h : Wf t k) {hint : Nat} (hf : RingFits t k hint) :
    ∃ k' res, Ring.make t k hint = .ok (k', res) ∧
      (∀ e, res = .error e → SameWorld k k' ∧ Wf t k') ∧
      (∀ r, res = .ok r → Made t k k' hint r.ptr r.len ∧ r.rpos = 0 ∧ r.wpos = 0) := by
  obtain ⟨len, k', res, h1, h2, h3, h4⟩ := Os.mapRing_good h hf
  cases res with
  | error e =>
    refine ⟨k', .error e, ?_, fun _ _ => h3 e rfl, fun _ h => by cases h⟩
    simp only [Ring.make, Unix.systemInfo, h1, h2, bind, Except.bind, pure, Except.pure]
  | ok p =>
    refine ⟨k', .ok ⟨p, len, 0, 0⟩, ?_, (fun _ h => by cases h), ?_⟩
    · simp only [Ring.make, Unix.systemInfo, h1, h2, bind, Except.bind, pure, Except.pure]
    · intro r hr
      injection hr with hr
      subst hr
      exact ⟨h4 p rfl, rfl, rfl⟩

/-- All outcomes of `InfiniteRing::new`, on any Unix. -/
theorem InfiniteRing.make_good {t : Target} {k : Kernel} (h : Wf t k) {hint : Nat} (hf : RingFits t k hint) :
    ∃ k' res, InfiniteRing.make t k hint = .ok (k', res) ∧
      (∀ e, res = .error e → SameWorld k k' ∧ Wf t k') ∧
      (∀ r, res = .ok r → Made t k k' hint r.ptr r.len ∧ r.rlen = 0 ∧ r.wpos = 0) := by
  obtain ⟨len, k', res, h1, h2, h3, h4⟩ := Os.mapRing_good h hf
  cases res with
  | error e =>
    refine ⟨k', .error e, ?_, fun _ _ => h3 e rfl, fun _ h => by cases h⟩
    simp only [InfiniteRing.make, Unix.systemInfo, h1, h2, bind, Except.bind, pure, Except.pure]
  | ok p =>
    refine ⟨k', .ok ⟨p, len, 0, 0⟩, ?_, (fun _ h => by cases h), ?_⟩
    · simp only [InfiniteRing.make, Unix.systemInfo, h1, h2, bind, Except.bind, pure, Except.pure]
    · intro r hr
      injection hr with hr
      subst hr
      exact ⟨h4 p rfl, rfl, rfl⟩

theorem Ring.make_posix {t : Target} {k : Kernel} (hm : k.mach = false) (hint : Nat) :
    Ring.make t k hint = Ring.new t k hint := by
  simp only [Ring.make, Ring.new, Os.mapRing, hm, Bool.false_eq_true, if_false]

theorem InfiniteRing.make_posix {t : Target} {k : Kernel} (hm : k.mach = false) (hint : Nat) :
    InfiniteRing.make t k hint = InfiniteRing.new t k hint := by
  simp only [InfiniteRing.make, InfiniteRing.new, Os.mapRing, hm, Bool.false_eq_true, if_false]

end Vmap
