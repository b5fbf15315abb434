import Verif.Proofs.MapOps
/- Helper lemmas: the range operations of existing maps and their effects. -/
namespace Vmap
open Kernel Spec

/-- The shape shared by `flush_range`, `advise_range`, `lock_range` and `unlock_range`. -/
def rangeOp (t : Target) (k : Kernel) (m : MapMut) (off len : Nat) (op : Operation)
    (sys : Nat → Nat → Kernel × Result Unit) : Exec (Kernel × Result Unit) := do
  let sum ← addU t off len
  if sum > m.len then return (k, .error (Error.input op .invalidRange))
  else
    let (ptr, len) ← (Size.page k).bounds t (ptrAdd t m.ptr off) len
    return sys ptr len

theorem flushRange_eq (t k m off len mode) : MapMut.flushRange t k m off len mode =
    rangeOp t k m off len .flush (fun p l => Unix.flush k p l mode) := rfl
theorem adviseRange_eq (t k m off len adv) : MapMut.adviseRange t k m off len adv =
    rangeOp t k m off len .advise (fun p l => Unix.advise k p l adv) := rfl
theorem lockRange_eq (t k m off len) : MapMut.lockRange t k m off len =
    rangeOp t k m off len .lock (fun p l => Unix.lock k p l) := rfl
theorem unlockRange_eq (t k m off len) : MapMut.unlockRange t k m off len =
    rangeOp t k m off len .unlock (fun p l => Unix.unlock k p l) := rfl

section
variable {t : Target} {k : Kernel} {m : MapMut} {off len : Nat} {op : Operation}
  {sys : Nat → Nat → Kernel × Result Unit}

theorem rangeOp_in (w : Wf t k) {p n : Nat} (g : Pages t k.page m.ptr m.len p n)
    (h : off + len ≤ m.len) :
    rangeOp t k m off len op sys =
      .ok (sys (pg k (m.ptr + off) * k.page) (npg k (m.ptr + off) len * k.page)) := by
  obtain ⟨h1, h2, -⟩ := range_bounds w g h
  have := g.top
  simp only [rangeOp, bind, Except.bind]
  rw [addU_ok (by omega)]
  simp only
  rw [if_neg (by omega), h1, h2]
  rfl

theorem rangeOp_out (h : m.len < off + len) (hl : off + len < t.lim) :
    rangeOp t k m off len op sys = .ok (k, .error (Error.input op .invalidRange)) := by
  simp only [rangeOp, bind, Except.bind]
  rw [addU_ok hl]
  simp only
  rw [if_pos h]
  rfl

theorem rangeOp_panic (hl : ¬ off + len < t.lim) (hc : t.checks = true) :
    rangeOp t k m off len op sys = .error .panic := by
  simp only [rangeOp, bind, Except.bind]
  rw [addU_panic hl hc]

/-- In a release build, an offset one page below the top of the address space and a length of one
page wrap to zero: the call acts on the page below the map. -/
theorem rangeOp_below (w : Wf t k) {p n : Nat} (g : Pages t k.page m.ptr m.len p n)
    (hp : m.ptr = p * k.page) (hc : t.checks = false) :
    rangeOp t k m (t.lim - k.page) k.page op sys = .ok (sys ((p - 1) * k.page) k.page) := by
  have hpp := w.page_pos
  have h4 := w.four_page_le
  have hlp := t.lim_pos
  have hf := g.fits
  have hp0 := g.p_pos
  simp only [rangeOp, bind, Except.bind]
  rw [addU_wrap (by omega) hc]
  simp only
  rw [show t.lim - k.page + k.page = t.lim by omega, Nat.mod_self, if_neg (by omega)]
  have h1 : k.page ≤ p * k.page := Nat.le_mul_of_pos_left _ hp0
  have hle : p * k.page ≤ (p + n) * k.page := Nat.mul_le_mul_right _ (by omega)
  have h2 : (p - 1) * k.page = p * k.page - k.page := by rw [Nat.sub_mul, Nat.one_mul]
  have h3 : ptrAdd t m.ptr (t.lim - k.page) = (p - 1) * k.page := by
    rw [hp, h2]
    simp only [ptrAdd, asUsize]
    rw [show p * k.page + (t.lim - k.page) = (p * k.page - k.page) + t.lim by omega,
      Nat.add_mod_right, Nat.mod_eq_of_lt (by omega)]
  rw [h3, sizePage_eq, bounds_eq w (by rw [Nat.mul_mod_left]; omega), Nat.mul_mod_left, Nat.add_zero,
    Nat.mul_div_cancel _ hpp, pages_mul hpp (Nat.dvd_refl _)]
  rfl

end

/-- The whole-map operations are the range operations on the whole map. -/
theorem whole_range {t : Target} {k : Kernel} (w : Wf t k) {m : MapMut} {p n : Nat}
    (g : Pages t k.page m.ptr m.len p n) :
    (∀ mode, m.flush t k mode = m.flushRange t k 0 m.len mode) ∧
    (∀ adv, m.advise t k adv = m.adviseRange t k 0 m.len adv) ∧
    m.lock t k = m.lockRange t k 0 m.len ∧ m.unlock t k = m.unlockRange t k 0 m.len := by
  have hb := whole_bounds w g
  have h0 : pg k (m.ptr + 0) = p ∧ npg k (m.ptr + 0) m.len = n := g.whole w.page_pos
  refine ⟨fun mode => ?_, fun adv => ?_, ?_, ?_⟩
  · rw [flushRange_eq, rangeOp_in w g (by omega), h0.1, h0.2]
    simp only [MapMut.flush, hb, bind, Except.bind]; rfl
  · rw [adviseRange_eq, rangeOp_in w g (by omega), h0.1, h0.2]
    simp only [MapMut.advise, hb, bind, Except.bind]; rfl
  · rw [lockRange_eq, rangeOp_in w g (by omega), h0.1, h0.2]
    simp only [MapMut.lock, hb, bind, Except.bind]; rfl
  · rw [unlockRange_eq, rangeOp_in w g (by omega), h0.1, h0.2]
    simp only [MapMut.unlock, hb, bind, Except.bind]; rfl

/-! ### Effects of the system calls -/

theorem onlyRange_logged (k : Kernel) (c r) (p n : Nat) : OnlyRange k (k.logged c r) p n := by
  refine ⟨rfl, rfl, rfl, rfl, rfl, rfl, rfl, rfl, fun _ _ => rfl, ?_, fun _ h => h⟩
  intro q e he
  exact ⟨e, he, rfl, rfl, rfl, rfl, .inl rfl⟩

theorem onlyRange_upd {k k' : Kernel} {p n : Nat} {f : Pte → Pte}
    (h : k'.pt = updPt k.pt p n f)
    (h1 : k'.page = k.page) (h2 : k'.data = k.data) (h3 : k'.size = k.size) (h4 : k'.fds = k.fds)
    (h5 : k'.names = k.names) (h6 : k'.fresh = k.fresh) (h7 : k'.nextFd = k.nextFd)
    (h8 : k'.oracle = k.oracle)
    (ho : ∀ e, (f e).obj = e.obj ∧ (f e).idx = e.idx ∧ (f e).shared = e.shared ∧
      (f e).mayWrite = e.mayWrite ∧ ((f e).copy = e.copy ∨ (f e).copy = none)) :
    OnlyRange k k' p n := by
  refine ⟨h1, h2, h3, h4, h5, h6, h7, h8, ?_, ?_, ?_⟩
  · intro q hq; rw [h]; exact if_neg hq
  · intro q e he
    rw [h]; unfold updPt
    split
    · exact ⟨f e, by rw [he]; rfl, ho e⟩
    · exact ⟨e, he, rfl, rfl, rfl, rfl, .inl rfl⟩
  · intro q hq
    rw [h]; unfold updPt
    split
    · rw [hq]; rfl
    · exact hq

theorem Spec.OnlyRange.wf {t : Target} {k k' : Kernel} {p n : Nat} (w : Wf t k)
    (h : OnlyRange k k' p n) : Wf t k' := by
  have key : ∀ q e, k'.pt q = some e → ∃ e0, k.pt q = some e0 ∧ e.obj = e0.obj ∧
      e.shared = e0.shared ∧ (e.copy = e0.copy ∨ e.copy = none) := by
    intro q e he
    cases h0 : k.pt q with
    | none => rw [h.unmapped q h0] at he; cases he
    | some e0 =>
      obtain ⟨e', h1, h2, -, h3, -, h4⟩ := h.inside q e0 h0
      rw [he] at h1
      injection h1 with h1
      subst h1
      exact ⟨e0, rfl, h2, h3, h4⟩
  constructor
  · rw [h.page]; exact w.page
  · intro q e he
    obtain ⟨e0, h0, -⟩ := key q e he
    rw [h.page]; exact w.addr q e0 h0
  · intro q e he
    obtain ⟨e0, h0, h1, h2, h3⟩ := key q e he
    have := w.objs q e0 h0
    rw [h.fresh, h1]
    refine ⟨this.1, fun c hc => ?_⟩
    rcases h3 with h3 | h3
    · exact this.2 c (by rw [← h3]; exact hc)
    · rw [h3] at hc; cases hc
  · rw [h.fds, h.fresh, h.nextFd]; exact w.fds
  · rw [h.names, h.fresh]; exact w.names
  · intro q e c he hc
    obtain ⟨e0, h0, h1, h2, h3⟩ := key q e he
    have hc0 : e0.copy = some c := by
      rcases h3 with h3 | h3
      · rw [← h3]; exact hc
      · rw [h3] at hc; cases hc
    obtain ⟨g1, g2, g3⟩ := w.excl q e0 c h0 hc0
    refine ⟨?_, by rw [h.fds]; exact g2, by rw [h.names]; exact g3⟩
    intro q' e' he'
    obtain ⟨e1, k0, k1, k2, k3⟩ := key q' e' he'
    obtain ⟨m1, m2⟩ := g1 q' e1 k0
    refine ⟨by rw [k1]; exact m1, fun hc' => ?_⟩
    rcases k3 with k3 | k3
    · exact m2 (by rw [← k3]; exact hc')
    · rw [k3] at hc'; cases hc'
  · intro q e he hs
    obtain ⟨e0, h0, h1, h2, h3⟩ := key q e he
    rcases h3 with h3 | h3
    · rw [h3]; exact w.shared q e0 h0 (by rw [← h2]; exact hs)
    · exact h3

/-- A page range handed to the kernel covers whole pages. -/
theorem call_pages {k : Kernel} (hp : 0 < k.page) (P N : Nat) :
    (P * k.page) / k.page = P ∧ k.pages (N * k.page) = N ∧ P * k.page % k.page = 0 :=
  ⟨Nat.mul_div_cancel _ hp, pages_mul_page hp N, Nat.mul_mod_left _ _⟩

theorem flush_fx (k : Kernel) (hp : 0 < k.page) (P N : Nat) (mode : FlushMode) :
    ∃ k' r, Unix.flush k (P * k.page) (N * k.page) mode = (k', r) ∧
      OneCall k k' (.msync (P * k.page) (N * k.page) (mode = .sync)) .flush r ∧
      OnlyRange k k' P N ∧ k'.pt = k.pt ∧
      (∀ o i, k'.disk o i = k.disk o i ∨ k'.disk o i = k.data o i) ∧
      (r = .ok () → mode = .sync → ∀ o i, k.ShownShared P N o (i / k.page) →
        k'.disk o i = k.data o i) := by
  obtain ⟨c1, c2, -⟩ := call_pages hp P N
  have hs : ∀ b : Bool, (b = decide (mode = .sync)) →
      Unix.flush k (P * k.page) (N * k.page) mode =
        wrapErr .flush (k.msync (P * k.page) (N * k.page) b) := by
    intro b hb; cases mode <;> subst hb <;> rfl
  rw [hs _ rfl]
  rcases msync_cases k (P * k.page) (N * k.page) (mode = .sync) with ⟨e, he⟩ | ⟨-, -, disk, he, hd⟩
  · rw [he]
    refine ⟨_, _, rfl, .inr ⟨e, _, rfl, rfl, rfl, rfl⟩, onlyRange_logged _ _ _ _ _, rfl,
      fun _ _ => .inl rfl, fun h => by cases h⟩
  · rw [he]
    rw [c1, c2] at hd
    refine ⟨_, _, rfl, .inl ⟨rfl, rfl⟩, ?_, rfl, fun o i => (hd o i).1, ?_⟩
    · exact ⟨rfl, rfl, rfl, rfl, rfl, rfl, rfl, rfl, fun _ _ => rfl,
        fun q e he => ⟨e, he, rfl, rfl, rfl, rfl, .inl rfl⟩, fun _ h => h⟩
    · intro _ hm o i hsh
      exact (hd o i).2.1 (by simp [hm]) hsh

theorem advise_fx (k : Kernel) (hp : 0 < k.page) (P N : Nat) (adv : Advise) :
    ∃ k' r, Unix.advise k (P * k.page) (N * k.page) adv = (k', r) ∧
      OneCall k k' (.madvise (P * k.page) (N * k.page) (Unix.adviseBits adv)) .advise r ∧
      OnlyRange k k' P N ∧ k'.disk = k.disk ∧
      ((r ≠ .ok () ∨ adv ≠ .willNotNeed) → k'.pt = k.pt) ∧
      (r = .ok () → adv = .willNotNeed → k'.pt = updPt k.pt P N (fun e => { e with copy := none })) := by
  obtain ⟨c1, c2, -⟩ := call_pages hp P N
  simp only [Unix.advise]
  rcases madvise_cases k (P * k.page) (N * k.page) (Unix.adviseBits adv) with ⟨e, he⟩ | ⟨-, -, he⟩
  · rw [he]
    refine ⟨_, _, rfl, .inr ⟨e, _, rfl, rfl, rfl, rfl⟩, onlyRange_logged _ _ _ _ _, rfl,
      fun _ => rfl, fun h => by cases h⟩
  · rw [he, c1, c2]
    have hadv : Unix.adviseBits adv = .dontneed ↔ adv = .willNotNeed := by
      cases adv <;> simp [Unix.adviseBits]
    by_cases h : adv = .willNotNeed
    · rw [if_pos (hadv.mpr h)]
      refine ⟨_, _, rfl, .inl ⟨rfl, rfl⟩, ?_, rfl, ?_, fun _ _ => rfl⟩
      · exact onlyRange_upd (f := fun e => { e with copy := none }) rfl rfl rfl rfl rfl rfl rfl rfl rfl
          (fun e => ⟨rfl, rfl, rfl, rfl, .inr rfl⟩)
      · rintro (h' | h')
        · exact absurd rfl h'
        · exact absurd h h'
    · rw [if_neg (fun h' => h (hadv.mp h'))]
      refine ⟨_, _, rfl, .inl ⟨rfl, rfl⟩, ?_, rfl, fun _ => rfl, fun _ h' => absurd h' h⟩
      exact ⟨rfl, rfl, rfl, rfl, rfl, rfl, rfl, rfl, fun _ _ => rfl,
        fun q e he => ⟨e, he, rfl, rfl, rfl, rfl, .inl rfl⟩, fun _ h => h⟩

theorem mlock_fx (k : Kernel) (hp : 0 < k.page) (P N : Nat) (on : Bool) (op : Operation) :
    ∃ k' r, wrapErr op (k.mlock (P * k.page) (N * k.page) on) = (k', r) ∧
      OneCall k k' (.mlock (P * k.page) (N * k.page) on) op r ∧
      OnlyRange k k' P N ∧ k'.disk = k.disk ∧
      (r ≠ .ok () → k'.pt = k.pt) ∧
      (r = .ok () → k'.pt = updPt k.pt P N (fun e => { e with locked := on })) := by
  obtain ⟨c1, c2, -⟩ := call_pages hp P N
  rcases mlock_cases k (P * k.page) (N * k.page) on with ⟨e, he⟩ | ⟨-, -, he⟩
  · rw [he]
    refine ⟨_, _, rfl, .inr ⟨e, _, rfl, rfl, rfl, rfl⟩, onlyRange_logged _ _ _ _ _, rfl,
      fun _ => rfl, fun h => by cases h⟩
  · rw [he, c1, c2]
    refine ⟨_, _, rfl, .inl ⟨rfl, rfl⟩, ?_, rfl, fun h => absurd rfl h, fun _ => rfl⟩
    exact onlyRange_upd (f := fun e => { e with locked := on }) rfl rfl rfl rfl rfl rfl rfl rfl rfl
      (fun e => ⟨rfl, rfl, rfl, rfl, .inl rfl⟩)

theorem protect_fx (k : Kernel) (hp : 0 < k.page) (P N : Nat) :
    ∃ k' r, Unix.protect k (P * k.page) (N * k.page) .readWrite = (k', r) ∧
      OneCall k k' (.mprotect (P * k.page) (N * k.page) ⟨true, true, false⟩) .protect r ∧
      OnlyRange k k' P N ∧ k'.disk = k.disk ∧
      (r ≠ .ok () → k'.pt = k.pt) ∧
      (r = .ok () → k'.pt = updPt k.pt P N (fun e => { e with prot := ⟨true, true, false⟩ }) ∧
        ∀ q, P ≤ q → q < P + N → ∃ e, k.pt q = some e ∧ e.mayWrite = true) := by
  obtain ⟨c1, c2, -⟩ := call_pages hp P N
  simp only [Unix.protect]
  rcases mprotect_cases k (P * k.page) (N * k.page) (Unix.protectBits .readWrite) with
    ⟨e, he⟩ | ⟨-, hm, he⟩
  · rw [he]
    refine ⟨_, _, rfl, .inr ⟨e, _, rfl, rfl, rfl, rfl⟩, onlyRange_logged _ _ _ _ _, rfl,
      fun _ => rfl, fun h => by cases h⟩
  · rw [he, c1, c2]
    rw [c1, c2] at hm
    refine ⟨_, _, rfl, .inl ⟨rfl, rfl⟩, ?_, rfl, fun h => absurd rfl h, fun _ => ⟨rfl, ?_⟩⟩
    · exact onlyRange_upd (f := fun e => { e with prot := ⟨true, true, false⟩ }) rfl rfl rfl rfl rfl rfl
        rfl rfl rfl (fun e => ⟨rfl, rfl, rfl, rfl, .inl rfl⟩)
    · intro q a b
      obtain ⟨e, h1, h2⟩ := hm q a b
      exact ⟨e, h1, h2 rfl⟩

/-- Loads on pages outside the range are unaffected. -/
theorem Spec.OnlyRange.load_outside {k k' : Kernel} {p n : Nat} (h : OnlyRange k k' p n) {a : Nat}
    (ha : ¬ (p ≤ a / k.page ∧ a / k.page < p + n)) : k'.load a = k.load a :=
  load_eq h.page h.size (h.outside _ ha) (fun e _ => by rw [h.data])

theorem load_same_pt {k k' : Kernel} (hp : k'.page = k.page) (hs : k'.size = k.size)
    (hd : k'.data = k.data) (hpt : k'.pt = k.pt) (a : Nat) : k'.load a = k.load a :=
  load_eq hp hs (by rw [hpt]) (fun e _ => by rw [hd])

/-- A live map stays live under range operations. -/
theorem Kernel.Live.onlyRange {t : Target} {k k' : Kernel} {m : MapMut} {p n P N : Nat}
    (g : Live t k m p n) (h : OnlyRange k k' P N) : Live t k' m p n := by
  refine ⟨by rw [h.page]; exact g.pages, ?_⟩
  intro q a b
  obtain ⟨e, he⟩ := g.mapped q a b
  obtain ⟨e', h1, -⟩ := h.inside q e he
  exact ⟨e', h1⟩

end Vmap
