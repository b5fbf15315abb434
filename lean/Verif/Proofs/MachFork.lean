import Verif.Spec.MachFork
import Verif.Props.Platform
import Verif.Proofs.Copy
/- Helper lemmas: a ring of which only the first half is mapped. -/
namespace Vmap
open Spec Kernel

/-- In `kc` only the first half of the ring that `k` has at `ptr` is mapped, with bytes of its own,
which are those of `k`. -/
def Half (k kc : Kernel) (ptr len : Nat) : Prop :=
  ∃ g : Nat → Obj × Nat, (∀ i, i < len → kc.Shows (ptr + i) (g i).1 (g i).2) ∧
    (∀ i j, i < len → j < len → g i = g j → i = j) ∧
    (∀ i, i < len → k.load (ptr + i) = .ok (kc.data (g i).1 (g i).2)) ∧
    (∀ a, ptr + len ≤ a → a < ptr + 2 * len → kc.pt (a / kc.page) = none)

namespace Half
variable {k kc : Kernel} {ptr len : Nat}

theorem load1 (h : Half k kc ptr len) {i : Nat} (hi : i < len) : kc.load (ptr + i) = k.load (ptr + i) := by
  obtain ⟨g, h1, -, h3, -⟩ := h
  rw [(h1 i hi).load, h3 i hi]

theorem fault1 (h : Half k kc ptr len) {i : Nat} (hi : len ≤ i) (hi' : i < 2 * len) :
    kc.load (ptr + i) = .error .memory := by
  obtain ⟨g, -, -, -, h4⟩ := h
  simp only [Kernel.load, h4 (ptr + i) (by omega) (by omega)]

theorem faultStore (h : Half k kc ptr len) {i : Nat} (hi : len ≤ i) (hi' : i < 2 * len) (b : Byte) :
    kc.store (ptr + i) b = .error .memory := by
  obtain ⟨g, -, -, -, h4⟩ := h
  simp only [Kernel.store, h4 (ptr + i) (by omega) (by omega)]

theorem loadIn (h : Half k kc ptr len) {off m : Nat} (hm : off + m ≤ len) :
    kc.loadN (ptr + off) m = k.loadN (ptr + off) m := by
  apply Vmap.loadN_congr
  intro i hi
  rw [Nat.add_assoc]
  exact h.load1 (by omega)

theorem loadOut (h : Half k kc ptr len) : ∀ {m off : Nat}, off < len → len < off + m → m ≤ len →
    kc.loadN (ptr + off) m = .error .memory
  | 0, off, h1, h2, _ => by omega
  | m + 1, off, h1, h2, h3 => by
    obtain ⟨b, hb⟩ : ∃ b, kc.load (ptr + off) = .ok b := by
      obtain ⟨g, g1, -⟩ := h
      exact ⟨_, (g1 off h1).load⟩
    simp only [Kernel.loadN, hb, bind, Except.bind]
    by_cases hl : off + 1 = len
    · cases m with
      | zero => omega
      | succ m =>
        simp only [Kernel.loadN, bind, Except.bind]
        rw [show ptr + off + 1 = ptr + len by omega, h.fault1 (Nat.le_refl _) (by omega)]
    · rw [show ptr + off + 1 = ptr + (off + 1) by omega,
        loadOut h (off := off + 1) (by omega) (by omega) (by omega)]

/-- One store in the first half, in both. -/
theorem store1 (h : Half k kc ptr len) {t : Target} {o : Obj} (m : k.Mirror t ptr len o) {i : Nat} (hi : i < len)
    (b : Byte) : ∃ k' kc', k.store (ptr + i) b = .ok k' ∧ kc.store (ptr + i) b = .ok kc' ∧
      Half k' kc' ptr len ∧ k'.Mirror t ptr len o := by
  obtain ⟨g, h1, h2, h3, h4⟩ := h
  have hs := m.shows' i (by omega)
  have hk := SameButData.setByte k o (i % len) b
  have hc := SameButData.setByte kc (g i).1 (g i).2 b
  refine ⟨_, _, hs.store b, (h1 i hi).store b, ⟨g, fun j hj => (h1 j hj).mono hc, h2, ?_, ?_⟩, m.mono hk⟩
  · intro j hj
    have hj' := (m.shows' j (by omega)).mono hk
    rw [hj'.load]
    have hl := h3 j hj
    rw [(m.shows' j (by omega)).load] at hl
    injection hl with hl
    simp only [Kernel.setByte, Nat.mod_eq_of_lt hi, Nat.mod_eq_of_lt hj] at hl ⊢
    by_cases hij : j = i
    · subst hij; simp
    · rw [if_neg (by simp [hij]), if_neg, hl]
      rintro ⟨e1, e2⟩
      exact hij (h2 j i hj hi (Prod.ext e1 e2))
  · intro a ha ha'
    rw [hc.page, hc.pt]; exact h4 a ha ha'

theorem storeIn {t : Target} {o : Obj} : ∀ (bs : List Byte) {k kc : Kernel} {off : Nat}, Half k kc ptr len →
    k.Mirror t ptr len o → off + bs.length ≤ len →
    ∃ k' kc', k.storeN (ptr + off) bs = .ok k' ∧ kc.storeN (ptr + off) bs = .ok kc' ∧
      Half k' kc' ptr len
  | [], k, kc, off, h, m, hb => ⟨k, kc, rfl, rfl, h⟩
  | b :: bs, k, kc, off, h, m, hb => by
    simp only [List.length_cons] at hb
    obtain ⟨k1, kc1, e1, e2, h1, m1⟩ := h.store1 m (i := off) (by omega) b
    obtain ⟨k2, kc2, e3, e4, h2⟩ := storeIn bs (off := off + 1) h1 m1 (by omega)
    refine ⟨k2, kc2, ?_, ?_, h2⟩
    · simp only [Kernel.storeN, e1, bind, Except.bind]; rw [Nat.add_assoc]; exact e3
    · simp only [Kernel.storeN, e2, bind, Except.bind]; rw [Nat.add_assoc]; exact e4

theorem storeOut {t : Target} {o : Obj} : ∀ (bs : List Byte) {k kc : Kernel} {off : Nat}, Half k kc ptr len →
    k.Mirror t ptr len o → off < len → len < off + bs.length → bs.length ≤ len →
    kc.storeN (ptr + off) bs = .error .memory
  | [], k, kc, off, h, m, h1, h2, _ => by simp only [List.length_nil] at h2; omega
  | b :: bs, k, kc, off, h, m, h1, h2, h3 => by
    simp only [List.length_cons] at h2 h3
    obtain ⟨k1, kc1, e1, e2, hh, m1⟩ := h.store1 m h1 b
    simp only [Kernel.storeN, e2, bind, Except.bind]
    by_cases hl : off + 1 = len
    · cases bs with
      | nil => simp only [List.length_nil] at h2; omega
      | cons b' bs =>
        simp only [Kernel.storeN, bind, Except.bind]
        rw [show ptr + off + 1 = ptr + len by omega, hh.faultStore (Nat.le_refl _) (by omega)]
    · rw [show ptr + off + 1 = ptr + (off + 1) by omega]
      exact storeOut bs hh m1 (by omega) (by omega) (by omega)

/-- One call, in the child. -/
theorem step1 {t : Target} {k kc k' : Kernel} {r r' : Ring} {o : Obj} {s : Spec.Win} {x : Resp}
    (h : Half k kc r.ptr r.len) (rep : RingRep t k r o s) (op : RingOp)
    (e : r.exec t k op = .ok ((k', r'), x)) :
    (inside r.len s op = false → r.exec t kc op = .error .memory) ∧
    (inside r.len s op = true → ∃ kc', r.exec t kc op = .ok ((kc', r'), x) ∧
      Half k' kc' r.ptr r.len) := by
  have hl := rep.len_eq
  have ht := rep.total
  have hq := rep.qlen
  have hw := Nat.mod_lt r.wpos rep.mirror.len_pos
  have hr := Nat.mod_lt r.rpos rep.mirror.len_pos
  have hrp : r.rpos = s.total - s.q.length := by omega
  have hmin : min s.spare.length t.usizeMax = s.spare.length := by
    have := rep.len_lt
    simp only [Target.usizeMax]; omega
  cases op with
  | write bs =>
    simp only [inside, decide_eq_false_iff_not, decide_eq_true_eq, ← ht]
    simp only [Ring.exec, Ring.write, writeInto, rep.asWriteSlice_eq, bind, Except.bind] at e ⊢
    rw [if_neg (by omega)] at e ⊢
    simp only [pure, Except.pure, Nat.min_comm s.spare.length] at e ⊢
    have hlen : (bs.take (min bs.length s.spare.length)).length = min bs.length s.spare.length := by simp
    generalize bs.take (min bs.length s.spare.length) = d at e hlen ⊢
    refine ⟨fun ho => ?_, fun hi => ?_⟩
    · rw [storeOut d h rep.mirror hw (by omega) (by omega)]
    · obtain ⟨k1, kc1, e1, e2, h'⟩ := storeIn d h rep.mirror (off := r.wpos % r.len) (by omega)
      rw [e1] at e
      rw [e2]
      simp only [] at e ⊢
      generalize SeqWrite.feed t r (min bs.length s.spare.length) = y at e ⊢
      cases y with
      | error f => cases e
      | ok r1 =>
        simp only [Except.ok.injEq, Prod.mk.injEq] at e
        obtain ⟨⟨rfl, rfl⟩, rfl⟩ := e
        exact ⟨kc1, rfl, h'⟩
  | read m =>
    simp only [inside, decide_eq_false_iff_not, decide_eq_true_eq, ← hrp]
    simp only [Ring.exec, Ring.read, readFrom, rep.asReadSlice_eq, bind, Except.bind] at e ⊢
    rw [if_neg (by omega)] at e ⊢
    simp only [pure, Except.pure, Nat.min_comm s.q.length] at e ⊢
    refine ⟨fun ho => ?_, fun hi => ?_⟩
    · rw [loadOut h hr (by omega) (by omega)]
    · rw [loadIn h hi]
      generalize k.loadN (r.ptr + r.rpos % r.len) (min m s.q.length) = y at e ⊢
      cases y with
      | error f => cases e
      | ok bs =>
        simp only [] at e ⊢
        generalize SeqRead.consume t r (min m s.q.length) = y at e ⊢
        cases y with
        | error f => cases e
        | ok r1 =>
          simp only [Except.ok.injEq, Prod.mk.injEq] at e
          obtain ⟨⟨rfl, rfl⟩, rfl⟩ := e
          exact ⟨kc, rfl, h⟩
  | poke bs =>
    simp only [inside, decide_eq_false_iff_not, decide_eq_true_eq, ← ht]
    simp only [Ring.exec, poke, rep.asWriteSlice_eq, bind, Except.bind, hmin, pure, Except.pure] at e ⊢
    have hlen : (bs.take s.spare.length).length = min bs.length s.spare.length := by simp [Nat.min_comm]
    generalize bs.take s.spare.length = d at e hlen ⊢
    refine ⟨fun ho => ?_, fun hi => ?_⟩
    · rw [storeOut d h rep.mirror hw (by omega) (by omega)]
    · obtain ⟨k1, kc1, e1, e2, h'⟩ := storeIn d h rep.mirror (off := r.wpos % r.len) (by omega)
      rw [e1] at e
      rw [e2]
      simp only [Except.ok.injEq, Prod.mk.injEq] at e
      obtain ⟨⟨rfl, rfl⟩, rfl⟩ := e
      exact ⟨kc1, rfl, h'⟩
  | readSlice m =>
    simp only [inside, decide_eq_false_iff_not, decide_eq_true_eq, ← hrp]
    simp only [Ring.exec, readSliceBytes, rep.asReadSlice_eq, bind, Except.bind, pure, Except.pure,
      Nat.min_comm s.q.length] at e ⊢
    refine ⟨fun ho => ?_, fun hi => ?_⟩
    · rw [loadOut h hr (by omega) (by omega)]
    · rw [loadIn h hi]
      generalize k.loadN (r.ptr + r.rpos % r.len) (min m s.q.length) = y at e ⊢
      cases y with
      | error f => cases e
      | ok bs =>
        simp only [Except.ok.injEq, Prod.mk.injEq] at e
        obtain ⟨⟨rfl, rfl⟩, rfl⟩ := e
        exact ⟨kc, rfl, h⟩
  | writeSlice m =>
    simp only [inside, decide_eq_false_iff_not, decide_eq_true_eq, ← ht]
    simp only [Ring.exec, writeSliceBytes, rep.asWriteSlice_eq, bind, Except.bind, pure, Except.pure,
      Nat.min_comm s.spare.length] at e ⊢
    refine ⟨fun ho => ?_, fun hi => ?_⟩
    · rw [loadOut h hw (by omega) (by omega)]
    · rw [loadIn h hi]
      generalize k.loadN (r.ptr + r.wpos % r.len) (min m s.spare.length) = y at e ⊢
      cases y with
      | error f => cases e
      | ok bs =>
        simp only [Except.ok.injEq, Prod.mk.injEq] at e
        obtain ⟨⟨rfl, rfl⟩, rfl⟩ := e
        exact ⟨kc, rfl, h⟩
  | consume m =>
    refine ⟨fun ho => (by simp only [inside] at ho; cases ho), fun _ => ?_⟩
    simp only [Ring.exec, bind, Except.bind, pure, Except.pure] at e ⊢
    generalize r.consume t m = y at e ⊢
    cases y with
    | error f => cases e
    | ok r1 =>
      simp only [Except.ok.injEq, Prod.mk.injEq] at e
      obtain ⟨⟨rfl, rfl⟩, rfl⟩ := e
      exact ⟨kc, rfl, h⟩
  | feed m =>
    refine ⟨fun ho => (by simp only [inside] at ho; cases ho), fun _ => ?_⟩
    simp only [Ring.exec, bind, Except.bind, pure, Except.pure] at e ⊢
    generalize r.feed t m = y at e ⊢
    cases y with
    | error f => cases e
    | ok r1 =>
      simp only [Except.ok.injEq, Prod.mk.injEq] at e
      obtain ⟨⟨rfl, rfl⟩, rfl⟩ := e
      exact ⟨kc, rfl, h⟩
  | readLen =>
    refine ⟨fun ho => (by simp only [inside] at ho; cases ho), fun _ => ?_⟩
    simp only [Ring.exec, rep.readLen_eq, bind, Except.bind, pure, Except.pure] at e ⊢
    simp only [Except.ok.injEq, Prod.mk.injEq] at e
    obtain ⟨⟨rfl, rfl⟩, rfl⟩ := e
    exact ⟨kc, rfl, h⟩
  | writeLen =>
    refine ⟨fun ho => (by simp only [inside] at ho; cases ho), fun _ => ?_⟩
    simp only [Ring.exec, rep.writeLen_eq, bind, Except.bind, pure, Except.pure] at e ⊢
    simp only [Except.ok.injEq, Prod.mk.injEq] at e
    obtain ⟨⟨rfl, rfl⟩, rfl⟩ := e
    exact ⟨kc, rfl, h⟩
  | isEmpty =>
    refine ⟨fun ho => (by simp only [inside] at ho; cases ho), fun _ => ?_⟩
    simp only [Ring.exec, bind, Except.bind, pure, Except.pure] at e ⊢
    generalize isEmpty t r = y at e ⊢
    cases y with
    | error f => cases e
    | ok r1 =>
      simp only [Except.ok.injEq, Prod.mk.injEq] at e
      obtain ⟨⟨rfl, rfl⟩, rfl⟩ := e
      exact ⟨kc, rfl, h⟩
  | isFull =>
    refine ⟨fun ho => (by simp only [inside] at ho; cases ho), fun _ => ?_⟩
    simp only [Ring.exec, bind, Except.bind, pure, Except.pure] at e ⊢
    generalize isFull t r = y at e ⊢
    cases y with
    | error f => cases e
    | ok r1 =>
      simp only [Except.ok.injEq, Prod.mk.injEq] at e
      obtain ⟨⟨rfl, rfl⟩, rfl⟩ := e
      exact ⟨kc, rfl, h⟩
  | capacity | clear =>
    refine ⟨fun ho => (by simp only [inside] at ho; cases ho), fun _ => ?_⟩
    simp only [Ring.exec, pure, Except.pure, Except.ok.injEq, Prod.mk.injEq] at e ⊢
    obtain ⟨⟨rfl, rfl⟩, rfl⟩ := e
    exact ⟨kc, ⟨⟨rfl, rfl⟩, rfl⟩, h⟩

/-- One call, in both. -/
theorem step {t : Target} {k kc : Kernel} {r : Ring} {o : Obj} {s : Spec.Win} (h : Half k kc r.ptr r.len)
    (rep : RingRep t k r o s) (op : RingOp) (hb : (s.step op).1.total < posBound t r.len) :
    (inside r.len s op = false → r.exec t kc op = .error .memory) ∧
    (inside r.len s op = true → ∃ k' r' kc', r.exec t k op = .ok ((k', r'), (s.step op).2) ∧
      r.exec t kc op = .ok ((kc', r'), (s.step op).2) ∧ Half k' kc' r'.ptr r'.len ∧
      RingRep t k' r' o (s.step op).1 ∧ r'.ptr = r.ptr ∧ r'.len = r.len) := by
  obtain ⟨k', r', e, rep', p1, p2, -, -⟩ := ring_step rep op hb
  obtain ⟨h1, h2⟩ := h.step1 rep op e
  refine ⟨h1, fun hi => ?_⟩
  obtain ⟨kc', e', h'⟩ := h2 hi
  exact ⟨k', r', kc', e, e', by rw [p1, p2]; exact h', rep', p1, p2⟩

/-- Any number of calls, in both. -/
theorem run {t : Target} {o : Obj} : ∀ (ops : List RingOp) {k kc : Kernel} {r : Ring} {s : Spec.Win},
    Half k kc r.ptr r.len → RingRep t k r o s → s.below (posBound t r.len) ops →
    (allInside r.len s ops = false → r.execAll t kc ops = .error .memory) ∧
    (allInside r.len s ops = true → ∃ k' r' kc', r.execAll t k ops = .ok ((k', r'), (s.run ops).2) ∧
      r.execAll t kc ops = .ok ((kc', r'), (s.run ops).2) ∧ Half k' kc' r'.ptr r'.len)
  | [], k, kc, r, s, h, rep, _ =>
    ⟨fun h => (by simp only [allInside] at h; cases h), fun _ => ⟨k, r, kc, rfl, rfl, h⟩⟩
  | op :: ops, k, kc, r, s, h, rep, hb => by
    obtain ⟨h1, h2⟩ := h.step rep op hb.1
    cases hi : inside r.len s op with
    | false =>
      refine ⟨fun _ => ?_, fun hx => (by simp only [allInside, hi, Bool.false_and] at hx; cases hx)⟩
      simp only [Ring.execAll, h1 hi, bind, Except.bind]
    | true =>
      obtain ⟨k1, r1, kc1, e1, e2, hh, rep1, p1, p2⟩ := h2 hi
      obtain ⟨g1, g2⟩ := run ops hh rep1 (by rw [p2]; exact hb.2)
      rw [p2] at g1 g2
      simp only [allInside, hi, Bool.true_and]
      refine ⟨fun hx => ?_, fun hx => ?_⟩
      · simp only [Ring.execAll, e2, bind, Except.bind, g1 hx]
      · obtain ⟨k2, r2, kc2, e3, e4, hh2⟩ := g2 hx
        refine ⟨k2, r2, kc2, ?_, ?_, hh2⟩
        · simp only [Ring.execAll, e1, bind, Except.bind, e3, pure, Except.pure, Win.run]
        · simp only [Ring.execAll, e2, bind, Except.bind, e4, pure, Except.pure, Win.run]

/-- A child process has half of the ring. -/
theorem of_child {t : Target} {s s' s2 : Mach} (hpos : 0 < s.page) {addr n : Nat}
    (ring : MachRing t s s' addr n) (hp : s'.page = s.page)
    (keep : SamePages s' s2 (addr / s.page) (2 * n)) {k kc : Kernel} {obj : Nat → Obj}
    (c : MachChild t s2 k kc obj) : Half k kc addr (n * s.page) := by
  obtain ⟨o, -, hsh⟩ := ring.shows'
  have hp2 : s2.page = s.page := keep.1.trans hp
  have hkp : kc.page = s.page := c.mem.page.trans hp2
  have haddr : addr / s.page * s.page = addr := by
    have := Nat.div_add_mod addr s.page
    rw [ring.aligned] at this
    rw [Nat.mul_comm]; omega
  have hdiv : ∀ i, (addr + i) / s.page = addr / s.page + i / s.page := by
    intro i
    rw [Nat.add_div hpos, ring.aligned, Nat.zero_add, if_neg (by have := Nat.mod_lt i hpos; omega)]
    omega
  have hmod : ∀ i, (addr + i) % s.page = i % s.page := by
    intro i
    rw [Nat.add_mod, ring.aligned, Nat.zero_add, Nat.mod_mod]
  have hlt : ∀ i, i < n * s.page → i / s.page < n := fun i hi => (Nat.div_lt_iff_lt_mul hpos).mpr hi
  have hsum : ∀ i, addr + i = (addr / s.page + i / s.page) * s.page + i % s.page := by
    intro i
    have := Nat.div_add_mod i s.page
    rw [Nat.add_mul, haddr, Nat.mul_comm (i / s.page)]
    omega
  have first : ∀ i, i < n * s.page → s2.pt (addr / s.page + i / s.page) = some (o, i / s.page) ∧
      s2.heir (addr / s.page + i / s.page) = true := by
    intro i hi
    have h1 := keep.2 (i / s.page) (by have := hlt i hi; omega)
    rw [h1.1, h1.2]
    exact ⟨(hsh _ (hlt i hi)).1, (ring.heirs _ (hlt i hi)).1⟩
  have shows : ∀ i, i < n * s.page → kc.Shows (addr + i) (obj (s2.fresh + (addr / s.page + i / s.page)))
      (i / s.page * s.page + i % s.page) := by
    intro i hi
    obtain ⟨h1, h2⟩ := first i hi
    obtain ⟨e, e1, e2, e3, e4, e5, e6, e7, e8⟩ := c.mem.entry (addr / s.page + i / s.page)
      (s2.fresh + (addr / s.page + i / s.page)) (i / s.page)
      (by simp [Mach.child, h1, h2]) (Nat.le_add_right _ _)
    refine ⟨e, by rw [hkp, hdiv]; exact e1, e5, e6, e7, e8, e2, ?_, e4⟩
    rw [hkp, hmod, e3]
  refine ⟨fun i => (obj (s2.fresh + (addr / s.page + i / s.page)), i / s.page * s.page + i % s.page),
    shows, ?_, ?_, ?_⟩
  · intro i j hi hj e
    have h1 := congrArg Prod.snd e
    simp only [] at h1
    rw [Nat.mul_comm, Nat.div_add_mod, Nat.mul_comm, Nat.div_add_mod] at h1
    exact h1
  · intro i hi
    obtain ⟨h1, h2⟩ := first i hi
    have := c.same (addr / s.page + i / s.page) (i % s.page) (by rw [h1]; simp) h2
      (by rw [hp2]; exact Nat.mod_lt _ hpos)
    rw [hp2, ← hsum] at this
    rw [← this]
    exact (shows i hi).load
  · intro a h1 h2
    obtain ⟨i, rfl⟩ : ∃ i, a = addr + (n * s.page + i) := ⟨a - (addr + n * s.page), by omega⟩
    have hi : i < n * s.page := by omega
    rw [hkp, hdiv, Nat.add_comm (n * s.page), Nat.add_mul_div_right _ _ hpos,
      show addr / s.page + (i / s.page + n) = addr / s.page + n + i / s.page by omega]
    have hq := keep.2 (n + i / s.page) (by have := hlt i hi; omega)
    rw [← Nat.add_assoc] at hq
    apply c.gone
    · rw [hq.1, (hsh _ (hlt i hi)).2]; simp
    · rw [hq.2]; exact (ring.heirs _ (hlt i hi)).2

end Half

/-- Every task with a memory can have a child. -/
theorem machChild_exists {t : Target} {s : Mach} (w : MachWf s) (l : MachLaid t s) {k : Kernel}
    {obj : Nat → Obj} (m : MachMem s k obj 0) : ∃ kc obj', MachChild t s k kc obj' := by
  have lim : ∀ q, s.pt q ≠ none → q < t.lim := by
    intro q hq
    cases h : s.pt q with
    | none => exact absurd h hq
    | some e =>
      have h1 := (l.inside q e.1 e.2 (by rw [h])).2.1
      have h2 := w.page
      have : q + 1 ≤ (q + 1) * s.page := Nat.le_mul_of_pos_right _ h2
      omega
  have cw : MachWf (s.child t) := by
    refine ⟨w.page, ?_, fun _ _ => rfl, fun _ _ h => (by cases h)⟩
    intro q e he
    simp only [Mach.child] at he ⊢
    split at he
    · simp only [Option.map_eq_some_iff] at he
      obtain ⟨v, hv, rfl⟩ := he
      have := lim q (by rw [hv]; simp)
      show s.fresh + q < s.fresh + t.lim
      omega
    · cases he
  have cl : MachLaid t (s.child t) := by
    refine ⟨l.page, ?_⟩
    intro q i j hq
    simp only [Mach.child] at hq ⊢
    split at hq
    · simp only [Option.map_eq_some_iff] at hq
      obtain ⟨v, hv, he⟩ := hq
      have := l.inside q v.1 v.2 (by rw [hv])
      cases he
      exact this
    · cases hq
  obtain ⟨-, mem⟩ := MachLaid.memory cl cw
  have mem := mem s.fresh
  let base := machMemory t (s.child t)
  let kc : Kernel := { base with
    data := fun o x => match k.load ((o - s.fresh) * s.page + x % s.page) with
      | .ok b => b
      | .error _ => 0 }
  have mem' : MachMem (s.child t) kc (fun i => i) s.fresh :=
    ⟨mem.page, mem.inj, mem.entry, mem.only⟩
  refine ⟨kc, fun i => i, mem', ?_, ?_⟩
  · intro q i hq hh hi
    cases h : s.pt q with
    | none => exact absurd h hq
    | some v =>
      have hdiv : (q * s.page + i) / s.page = q := by
        rw [Nat.mul_comm, Nat.mul_add_div w.page, Nat.div_eq_of_lt hi, Nat.add_zero]
      have hmod : (q * s.page + i) % s.page = i := by
        rw [Nat.mul_comm, Nat.mul_add_mod, Nat.mod_eq_of_lt hi]
      obtain ⟨e, e1, e2, e3, e4, e5, e6, e7, e8⟩ := mem'.entry q (s.fresh + q) v.2
        (by simp [Mach.child, h, hh]) (Nat.le_add_right _ _)
      obtain ⟨f, f1, f2, f3, f4, f5, f6, f7, f8⟩ := m.entry q v.1 v.2 (by rw [h]) (Nat.zero_le _)
      have hk : k.load (q * s.page + i) = .ok (k.data (obj v.1) (v.2 * s.page + i)) := by
        have sh : k.Shows (q * s.page + i) (obj v.1) (v.2 * s.page + i) :=
          ⟨f, by rw [m.page, hdiv]; exact f1, f5, f6, f7, f8, f2, by rw [m.page, hmod, f3], f4⟩
        exact sh.load
      have hc : kc.Shows (q * s.page + i) (s.fresh + q) (v.2 * s.page + i) :=
        ⟨e, by rw [mem'.page]; show kc.pt ((q * s.page + i) / s.page) = _; rw [hdiv]; exact e1, e5, e6, e7, e8, e2,
          by rw [mem'.page]; show e.idx * s.page + (q * s.page + i) % s.page = _; rw [hmod, e3], e4⟩
      rw [hc.load]
      show Except.ok (match k.load ((s.fresh + q - s.fresh) * s.page + (v.2 * s.page + i) % s.page) with
        | .ok b => b
        | .error _ => 0) = _
      rw [Nat.add_sub_cancel_left, Nat.mul_comm v.2, Nat.mul_add_mod, Nat.mod_eq_of_lt hi, hk]
  · intro q hq hh
    show Option.map _ ((s.child t).pt q) = none
    simp [Mach.child, hh]

end Vmap
