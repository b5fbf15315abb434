import Verif.Proofs.RangeOp
import Verif.Spec.DemoMap
/-
Property theorems C44, C45 and C50: flush, advise, lock and unlock of maps and parts of them.
-/
namespace Vmap
open Kernel Spec

/-- A concrete map for the examples: 8192 bytes at page 1000. -/
theorem demoMap_live (t : Target) (sh mw : Bool) (prot : Prot) :
    Live t (demoMap sh mw prot) ⟨4096000, 8192⟩ 1000 2 := by
  have := t.lim_cases
  refine ⟨?_, ?_⟩
  · show Pages t 4096 4096000 8192 1000 2
    constructor <;> omega
  · intro q h1 h2
    exact ⟨_, if_pos ⟨h1, h2⟩⟩

/-! ### C44 -/

/-- C44 in full. -/
def C44_full : Prop :=
  ∀ (t : Target) (k : Kernel) (m : MapMut) (off len : Nat) (p n : Nat),
    Wf t k → Live t k m p n → off < t.lim → len < t.lim → m.len < off + len →
    (∀ mode, Rejected k .flush (m.flushRange t k off len mode)) ∧
    (∀ adv, Rejected k .advise (m.adviseRange t k off len adv)) ∧
    Rejected k .lock (m.lockRange t k off len) ∧
    Rejected k .unlock (m.unlockRange t k off len)

theorem rejected_input (k : Kernel) (op : Operation) :
    Rejected k op (.ok (k, .error (Error.input op .invalidRange)) : Exec (Kernel × Result Unit)) :=
  ⟨_, rfl, rfl, rfl, fun _ => rfl⟩

/-- C44 whenever `off + len` is a `usize` (missing: sums that overflow, for which it is false in
release builds, see `C44_false`, and which panic in debug builds, see `C44_debug`).  The last
three lines are the same for the calls of `Map`. -/
theorem C44_rejected_partial {t : Target} {k : Kernel} {m : MapMut} {off len : Nat}
    (h : m.len < off + len) (hl : off + len < t.lim) :
    (∀ mode, Rejected k .flush (m.flushRange t k off len mode)) ∧
    (∀ adv, Rejected k .advise (m.adviseRange t k off len adv)) ∧
    Rejected k .lock (m.lockRange t k off len) ∧
    Rejected k .unlock (m.unlockRange t k off len) ∧
    (∀ adv, Rejected k .advise ((Map.mk m).adviseRange t k off len adv)) ∧
    Rejected k .lock ((Map.mk m).lockRange t k off len) ∧
    Rejected k .unlock ((Map.mk m).unlockRange t k off len) := by
  have hf : ∀ mode, Rejected k .flush (m.flushRange t k off len mode) := fun mode => by
    rw [flushRange_eq, rangeOp_out h hl]; exact rejected_input _ _
  have ha : ∀ adv, Rejected k .advise (m.adviseRange t k off len adv) := fun adv => by
    rw [adviseRange_eq, rangeOp_out h hl]; exact rejected_input _ _
  have hk : Rejected k .lock (m.lockRange t k off len) := by
    rw [lockRange_eq, rangeOp_out h hl]; exact rejected_input _ _
  have hu : Rejected k .unlock (m.unlockRange t k off len) := by
    rw [unlockRange_eq, rangeOp_out h hl]; exact rejected_input _ _
  exact ⟨hf, ha, hk, hu, ha, hk, hu⟩

/-- In debug builds a sum that overflows panics, without a system call. -/
theorem C44_debug {t : Target} (hc : t.checks = true) {k : Kernel} {m : MapMut} {off len : Nat}
    (hl : ¬ off + len < t.lim) :
    (∀ mode, m.flushRange t k off len mode = .error .panic) ∧
    (∀ adv, m.adviseRange t k off len adv = .error .panic) ∧
    m.lockRange t k off len = .error .panic ∧ m.unlockRange t k off len = .error .panic := by
  refine ⟨fun mode => ?_, fun adv => ?_, ?_, ?_⟩
  · rw [flushRange_eq, rangeOp_panic hl hc]
  · rw [adviseRange_eq, rangeOp_panic hl hc]
  · rw [lockRange_eq, rangeOp_panic hl hc]
  · rw [unlockRange_eq, rangeOp_panic hl hc]

/-- In release builds, for a page-aligned map on a page above page zero, the range
`(usize::MAX + 1 - page, page)` is accepted and the system call is made on the page *below* the
map, which may belong to anything. -/
theorem C44_release {t : Target} (hc : t.checks = false) {k : Kernel} (w : Wf t k) {m : MapMut}
    {p n : Nat} (g : Live t k m p n) (hp : m.ptr = p * k.page) :
    (∀ mode, m.flushRange t k (t.lim - k.page) k.page mode =
      .ok (Unix.flush k (m.ptr - k.page) k.page mode)) ∧
    (∀ adv, m.adviseRange t k (t.lim - k.page) k.page adv =
      .ok (Unix.advise k (m.ptr - k.page) k.page adv)) ∧
    m.lockRange t k (t.lim - k.page) k.page = .ok (Unix.lock k (m.ptr - k.page) k.page) ∧
    m.unlockRange t k (t.lim - k.page) k.page = .ok (Unix.unlock k (m.ptr - k.page) k.page) := by
  have e : (p - 1) * k.page = m.ptr - k.page := by rw [Nat.sub_mul, Nat.one_mul, hp]
  refine ⟨fun mode => ?_, fun adv => ?_, ?_, ?_⟩
  · rw [flushRange_eq, rangeOp_below w g.pages hp hc, e]
  · rw [adviseRange_eq, rangeOp_below w g.pages hp hc, e]
  · rw [lockRange_eq, rangeOp_below w g.pages hp hc, e]
  · rw [unlockRange_eq, rangeOp_below w g.pages hp hc, e]

/-- C44 is false in release builds: the range is not rejected, a system call is made. -/
theorem C44_false : ¬ C44_full := by
  intro h
  have hrel := C44_release (t := ⟨.w64, false⟩) rfl (demoMap_wf true true ⟨true, true, false⟩)
    (demoMap_live _ _ _ _) rfl
  have h4 := (demoMap_wf (t := ⟨.w64, false⟩) true true ⟨true, true, false⟩).four_page_le
  have hpp := (demoMap_wf (t := ⟨.w64, false⟩) true true ⟨true, true, false⟩).page_pos
  have hlen : (8192 : Nat) = 2 * (demoMap true true ⟨true, true, false⟩).page := rfl
  have hlp := (⟨.w64, false⟩ : Target).lim_pos
  obtain ⟨-, -, hr, -⟩ := h ⟨.w64, false⟩ (demoMap true true ⟨true, true, false⟩)
    ⟨4096000, 8192⟩ (Target.lim ⟨.w64, false⟩ - (demoMap true true ⟨true, true, false⟩).page)
    (demoMap true true ⟨true, true, false⟩).page 1000 2
    (demoMap_wf _ _ _) (demoMap_live _ _ _ _) (by omega) (by omega) (by dsimp only; omega)
  rw [hrel.2.2.1] at hr
  obtain ⟨err, he, -⟩ := hr
  injection he with he
  have hl := congrArg (fun x : Kernel × Result Unit => x.1.log.length) he
  have h1 : (Unix.lock (demoMap true true ⟨true, true, false⟩) (4096000 - 4096) 4096).1.log.length = 1 := by
    decide
  exact absurd (h1.symm.trans hl) (by show ¬ (1 = 0); decide)

/-- What the wrap-around can destroy: any modified private page just below the map loses its
modifications when `advise_range(usize::MAX + 1 - page, page, WillNotNeed)` returns `Ok`. -/
theorem C44_destroys_neighbour {t : Target} (hc : t.checks = false) {k k' : Kernel} (w : Wf t k)
    {m : MapMut} {p n : Nat} (g : Live t k m p n) (hp : m.ptr = p * k.page) {e : Pte}
    (he : k.pt (p - 1) = some e)
    (h : m.adviseRange t k (t.lim - k.page) k.page .willNotNeed = .ok (k', .ok ())) :
    k'.pt (p - 1) = some { e with copy := none } := by
  have hpp := w.page_pos
  have hn : (p - 1) * k.page = m.ptr - k.page := by rw [Nat.sub_mul, Nat.one_mul, hp]
  rw [(C44_release hc w g hp).2.1, ← hn] at h
  obtain ⟨k1, r1, h1, -, -, -, -, h3⟩ := advise_fx k hpp (p - 1) 1 .willNotNeed
  rw [Nat.one_mul] at h1
  rw [h1] at h
  injection h with h
  injection h with ha hb
  subst ha
  subst hb
  rw [h3 rfl rfl]
  unfold updPt
  rw [if_pos ⟨Nat.le_refl _, by omega⟩, he]
  rfl

/-- Non-vacuity of `C44_rejected_partial` and `C44_debug`. -/
example : (8192 : Nat) < 8000 + 193 ∧ 8000 + 193 < Target.lim ⟨.w32, false⟩ ∧
    ¬ (2 ^ 32 - 1) + 1 < Target.lim ⟨.w32, true⟩ := by decide

/-! ### C45 -/

/-- C45: an in-range sub-range call makes exactly one system call, on the fewest whole pages that
contain the requested bytes, all of them pages of the map; it reports how that call ended; only
attributes of those pages change. -/
theorem C45_range_calls {t : Target} {k : Kernel} (w : Wf t k) {m : MapMut} {p n : Nat}
    (g : Live t k m p n) {off len : Nat} (h : off + len ≤ m.len) :
    ∃ addr sz, Encloses k.page p n (m.ptr + off) len addr sz ∧
    (∀ mode, ∃ k' r, m.flushRange t k off len mode = .ok (k', r) ∧ Wf t k' ∧
      OneCall k k' (.msync addr sz (mode = .sync)) .flush r ∧
      OnlyRange k k' (addr / k.page) (sz / k.page) ∧ k'.pt = k.pt) ∧
    (∀ adv, ∃ k' r, m.adviseRange t k off len adv = .ok (k', r) ∧ Wf t k' ∧
      OneCall k k' (.madvise addr sz (Unix.adviseBits adv)) .advise r ∧
      OnlyRange k k' (addr / k.page) (sz / k.page) ∧ k'.disk = k.disk) ∧
    (∃ k' r, m.lockRange t k off len = .ok (k', r) ∧ Wf t k' ∧
      OneCall k k' (.mlock addr sz true) .lock r ∧
      OnlyRange k k' (addr / k.page) (sz / k.page) ∧ k'.disk = k.disk ∧
      (r = .ok () → ∀ i, i < len → ∃ e, k'.pt ((m.ptr + off + i) / k.page) = some e ∧
        e.locked = true)) ∧
    (∃ k' r, m.unlockRange t k off len = .ok (k', r) ∧ Wf t k' ∧
      OneCall k k' (.mlock addr sz false) .unlock r ∧
      OnlyRange k k' (addr / k.page) (sz / k.page) ∧ k'.disk = k.disk ∧
      (r = .ok () → ∀ i, i < len → ∃ e, k'.pt ((m.ptr + off + i) / k.page) = some e ∧
        e.locked = false)) := by
  have hpp := w.page_pos
  obtain ⟨-, -, hP, hN, henc⟩ := range_bounds w g.pages h
  have hin : ∀ i, i < len → pg k (m.ptr + off) ≤ (m.ptr + off + i) / k.page ∧
      (m.ptr + off + i) / k.page < pg k (m.ptr + off) + npg k (m.ptr + off) len := by
    intro i hi
    have h1 := henc.lower
    have h2 := henc.upper
    refine ⟨?_, ?_⟩
    · rw [Nat.le_div_iff_mul_le hpp]; omega
    · rw [Nat.div_lt_iff_lt_mul hpp, Nat.add_mul]; omega
  refine ⟨_, _, henc, ?_⟩
  rw [Nat.mul_div_cancel _ hpp, Nat.mul_div_cancel _ hpp]
  have lockd : ∀ (k' : Kernel) (on : Bool),
      k'.pt = updPt k.pt (pg k (m.ptr + off)) (npg k (m.ptr + off) len)
        (fun e => { e with locked := on }) →
      ∀ i, i < len → ∃ e, k'.pt ((m.ptr + off + i) / k.page) = some e ∧ e.locked = on := by
    intro k' on hpt i hi
    obtain ⟨a, b⟩ := hin i hi
    obtain ⟨e, he⟩ := g.mapped ((m.ptr + off + i) / k.page) (by omega) (by omega)
    exact ⟨{ e with locked := on }, by rw [hpt]; unfold updPt; rw [if_pos ⟨a, b⟩, he]; rfl, rfl⟩
  refine ⟨?_, ?_, ?_, ?_⟩
  · intro mode
    obtain ⟨k', r, h1, h2, h3, h4, -⟩ := flush_fx k hpp (pg k (m.ptr + off)) (npg k (m.ptr + off) len) mode
    exact ⟨k', r, by rw [flushRange_eq, rangeOp_in w g.pages h, h1], h3.wf w, h2, h3, h4⟩
  · intro adv
    obtain ⟨k', r, h1, h2, h3, h4, -⟩ := advise_fx k hpp (pg k (m.ptr + off)) (npg k (m.ptr + off) len) adv
    exact ⟨k', r, by rw [adviseRange_eq, rangeOp_in w g.pages h, h1], h3.wf w, h2, h3, h4⟩
  · obtain ⟨k', r, h1, h2, h3, h4, -, h5⟩ :=
      mlock_fx k hpp (pg k (m.ptr + off)) (npg k (m.ptr + off) len) true .lock
    exact ⟨k', r, by rw [lockRange_eq, rangeOp_in w g.pages h]; exact congrArg _ h1, h3.wf w, h2, h3,
      h4, fun hr => lockd k' true (h5 hr)⟩
  · obtain ⟨k', r, h1, h2, h3, h4, -, h5⟩ :=
      mlock_fx k hpp (pg k (m.ptr + off)) (npg k (m.ptr + off) len) false .unlock
    exact ⟨k', r, by rw [unlockRange_eq, rangeOp_in w g.pages h]; exact congrArg _ h1, h3.wf w, h2,
      h3, h4, fun hr => lockd k' false (h5 hr)⟩

/-- C45: the whole-map calls do the same with the whole map. -/
theorem C45_whole {t : Target} {k : Kernel} (w : Wf t k) {m : MapMut} {p n : Nat}
    (g : Live t k m p n) :
    (∀ mode, m.flush t k mode = m.flushRange t k 0 m.len mode) ∧
    (∀ adv, m.advise t k adv = m.adviseRange t k 0 m.len adv) ∧
    m.lock t k = m.lockRange t k 0 m.len ∧ m.unlock t k = m.unlockRange t k 0 m.len ∧
    (∀ adv, (Map.mk m).advise t k adv = m.adviseRange t k 0 m.len adv) ∧
    (Map.mk m).lock t k = m.lockRange t k 0 m.len ∧
    (Map.mk m).unlock t k = m.unlockRange t k 0 m.len := by
  obtain ⟨h1, h2, h3, h4⟩ := whole_range w g.pages
  exact ⟨h1, h2, h3, h4, h2, h3, h4⟩

/-- C45: in-range calls succeed when the kernel does not fail. -/
theorem C45_succeeds {t : Target} {k : Kernel} (w : Wf t k) {m : MapMut} {p n : Nat}
    (g : Live t k m p n) {off len : Nat} (h : off + len ≤ m.len)
    (hok : (k.oracle k.tick).ok = true) :
    (∀ mode, ∃ k', m.flushRange t k off len mode = .ok (k', .ok ())) ∧
    (∀ adv, ∃ k', m.adviseRange t k off len adv = .ok (k', .ok ())) ∧
    (∃ k', m.lockRange t k off len = .ok (k', .ok ())) ∧
    (∃ k', m.unlockRange t k off len = .ok (k', .ok ())) := by
  have hpp := w.page_pos
  obtain ⟨-, -, hP, hN, -⟩ := range_bounds w g.pages h
  generalize hP' : pg k (m.ptr + off) = P at *
  generalize hN' : npg k (m.ptr + off) len = N at *
  obtain ⟨c1, c2, c3⟩ := call_pages hpp P N
  have h1 : ¬ (P * k.page % k.page != 0) = true := by simp
  have h2 : ¬ (!k.tock.rangeMapped (P * k.page / k.page) (k.pages (N * k.page))) = true := by
    rw [c1, c2]
    simp only [Bool.not_eq_true', Bool.not_eq_false]
    exact rangeMapped_iff.mpr (fun q a b => g.mapped q (by omega) (by omega))
  have h3 : ¬ (!k.now.ok) = true := by
    have : k.now.ok = true := hok
    simp [this]
  refine ⟨fun mode => ?_, fun adv => ?_, ?_, ?_⟩
  · rw [flushRange_eq, rangeOp_in w g.pages h, hP', hN']
    have : ∀ b, ∃ k', k.msync (P * k.page) (N * k.page) b = (k', .ok ()) := by
      intro b
      simp only [msync, msyncCore]
      rw [if_neg (by exact h1), if_neg (by exact h2), if_neg (by exact h3)]
      cases b <;> exact ⟨_, rfl⟩
    cases mode with
    | async => obtain ⟨k', hk⟩ := this false; exact ⟨k', by simp only [Unix.flush, hk, wrapErr]⟩
    | sync => obtain ⟨k', hk⟩ := this true; exact ⟨k', by simp only [Unix.flush, hk, wrapErr]⟩
  · rw [adviseRange_eq, rangeOp_in w g.pages h, hP', hN']
    have : ∀ b, ∃ k', k.madvise (P * k.page) (N * k.page) b = (k', .ok ()) := by
      intro b
      simp only [madvise, madviseCore]
      rw [if_neg (by exact h1), if_neg (by exact h2), if_neg (by exact h3)]
      split <;> exact ⟨_, rfl⟩
    obtain ⟨k', hk⟩ := this (Unix.adviseBits adv)
    exact ⟨k', by simp only [Unix.advise, hk, wrapErr]⟩
  all_goals
    have : ∀ b, ∃ k', k.mlock (P * k.page) (N * k.page) b = (k', .ok ()) := by
      intro b
      simp only [mlock, mlockCore]
      rw [if_neg (by exact h1), if_neg (by exact h2), if_neg (by exact h3)]
      exact ⟨_, rfl⟩
  · rw [lockRange_eq, rangeOp_in w g.pages h, hP', hN']
    obtain ⟨k', hk⟩ := this true
    exact ⟨k', by simp only [Unix.lock, hk, wrapErr]⟩
  · rw [unlockRange_eq, rangeOp_in w g.pages h, hP', hN']
    obtain ⟨k', hk⟩ := this false
    exact ⟨k', by simp only [Unix.unlock, hk, wrapErr]⟩

/-- Non-vacuity: a live map of two pages, and bytes 4000..4200 of it, which straddle both. -/
example (t : Target) : Wf t (demoMap true true ⟨true, true, false⟩) ∧
    Live t (demoMap true true ⟨true, true, false⟩) ⟨4096000, 8192⟩ 1000 2 ∧ 4000 + 200 ≤ 8192 ∧
    ((demoMap true true ⟨true, true, false⟩).oracle 0).ok = true :=
  ⟨demoMap_wf _ _ _, demoMap_live _ _ _ _, by decide, by decide⟩

/-! ### C50 -/

/-- C50 in full: no hint changes any byte of memory. -/
def C50_full : Prop :=
  ∀ (t : Target) (k k' : Kernel) (m : MapMut) (p n off len : Nat) (adv : Advise) (r : Result Unit),
    Wf t k → Live t k m p n → off + len ≤ m.len → m.adviseRange t k off len adv = .ok (k', r) →
    ∀ a, k'.load a = k.load a

/-- What is true of every hint: no object and no byte outside the pages of the range changes;
and nothing at all changes unless the hint is `WillNotNeed` and some page of the range has
private modifications (missing: those, for which the claim is false). -/
theorem C50_advise_partial {t : Target} {k k' : Kernel} (w : Wf t k) {m : MapMut} {p n off len : Nat}
    (g : Live t k m p n) (h : off + len ≤ m.len) {adv : Advise} {r : Result Unit}
    (he : m.adviseRange t k off len adv = .ok (k', r)) :
    k'.data = k.data ∧ k'.size = k.size ∧ k'.disk = k.disk ∧
    (∀ a, ¬ (p * k.page ≤ a ∧ a < (p + n) * k.page) → k'.load a = k.load a) ∧
    (adv ≠ .willNotNeed ∨ (∀ q e, p ≤ q → q < p + n → k.pt q = some e → e.copy = none) →
      ∀ a, k'.load a = k.load a) := by
  have hpp := w.page_pos
  obtain ⟨-, -, hP, hN, henc⟩ := range_bounds w g.pages h
  obtain ⟨k1, r1, h1, -, h3, h4, h5, h6⟩ :=
    advise_fx k hpp (pg k (m.ptr + off)) (npg k (m.ptr + off) len) adv
  rw [adviseRange_eq, rangeOp_in w g.pages h, h1] at he
  injection he with he
  injection he with ha hb
  subst ha
  subst hb
  refine ⟨h3.data, h3.size, h4, ?_, ?_⟩
  · intro a ha
    apply h3.load_outside
    rintro ⟨x, y⟩
    apply ha
    rw [← Nat.le_div_iff_mul_le hpp, ← Nat.div_lt_iff_lt_mul hpp]
    omega
  · intro hq a
    by_cases hr : r1 = .ok () ∧ adv = .willNotNeed
    · have hcopy := hq.resolve_left (fun hne => hne hr.2)
      apply load_same_pt h3.page h3.size h3.data
      funext q
      rw [h6 hr.1 hr.2]
      unfold updPt
      split
      · rename_i hb
        cases hpt : k.pt q with
        | none => rfl
        | some e =>
          have := hcopy q e (by omega) (by omega) hpt
          show some _ = some e
          rw [← this]
      · rfl
    · apply load_same_pt h3.page h3.size h3.data
      apply h5
      by_cases hr1 : r1 = .ok ()
      · exact .inr (fun hx => hr ⟨hr1, hx⟩)
      · exact .inl hr1

/-- C50 for shared maps: no hint changes any byte of memory. -/
theorem C50_shared_partial {t : Target} {k k' : Kernel} (w : Wf t k) {m : MapMut} {p n off len : Nat}
    (g : Live t k m p n) (h : off + len ≤ m.len)
    (hs : ∀ q e, p ≤ q → q < p + n → k.pt q = some e → e.shared = true)
    {adv : Advise} {r : Result Unit}
    (he : m.adviseRange t k off len adv = .ok (k', r)) : ∀ a, k'.load a = k.load a :=
  (C50_advise_partial w g h he).2.2.2.2
    (.inr fun q e a b hq => w.shared q e hq (hs q e a b hq))

/-- `WillNotNeed` throws modifications of private maps away: whatever was written, afterwards
every byte of the range is the underlying object's again. -/
theorem C50_discards {t : Target} {k k' : Kernel} (w : Wf t k) {m : MapMut} {p n : Nat}
    (g : Live t k m p n) {o off mw prot} (hm : k.MapsAll m.ptr m.len o off false mw prot)
    (hr : prot.r = true) (he : m.advise t k .willNotNeed = .ok (k', .ok ())) {i : Nat}
    (hi : i < m.len) : m.get k' i = .ok (k.data o (off + i)) := by
  have hpp := w.page_pos
  rw [(whole_range w g.pages).2.1, adviseRange_eq, rangeOp_in w g.pages (by omega)] at he
  have h0 : pg k (m.ptr + 0) = p ∧ npg k (m.ptr + 0) m.len = n := g.pages.whole hpp
  rw [h0.1, h0.2] at he
  obtain ⟨k1, r1, h1, -, h3, h4, h5, h6⟩ := advise_fx k hpp p n .willNotNeed
  rw [h1] at he
  injection he with he
  injection he with ha hb
  subst ha
  subst hb
  obtain ⟨e, a1, a2, a3, a4, a5, a6, a7⟩ := hm i hi
  obtain ⟨s1, s2, -⟩ := g.pages.sub hpp (off := i) (l := 1) (by omega)
  have hpg : 1 ≤ k.pages (1 + (m.ptr + i) % k.page) := by
    rw [pages_eq, Nat.le_div_iff_mul_le hpp]; omega
  have hpt : k1.pt ((m.ptr + i) / k1.page) = some { e with copy := none } := by
    rw [h6 rfl rfl, h3.page]
    unfold updPt
    rw [if_pos ⟨s1, by omega⟩, a1]
    rfl
  rw [MapMut.get, if_pos hi, ← h3.data]
  refine Maps.load_fresh (sh := false) (mw := mw) (prot := prot) hpt rfl ?_ hr
  refine ⟨_, hpt, a2, ?_, a4, a5, a6, ?_⟩
  · rw [h3.page]; exact a3
  · have : k.backed e = true := a7
    simpa [backed, h3.page, h3.size] using this

/-- C50 is false: write 77 to byte 10 of a private map of the demo file (which holds 10 there),
advise `WillNotNeed`, and the byte is 10 again. -/
theorem C50_false : ¬ C50_full := by
  intro h
  have t : Target := ⟨.w64, true⟩
  have w0 := demoMap_wf (t := t) false true ⟨true, true, false⟩
  have hmaps : (demoMap false true ⟨true, true, false⟩).MapsAll 4096000 8192 0 0 false true
      ⟨true, true, false⟩ := by
    intro i hi
    have hp : (demoMap false true ⟨true, true, false⟩).page = 4096 := rfl
    refine ⟨⟨0, (4096000 + i) / 4096 - 1000, ⟨true, true, false⟩, false, true, none, false⟩, ?_, rfl,
      ?_, rfl, rfl, rfl, ?_⟩
    · rw [hp]
      show (if _ then _ else _) = _
      rw [if_pos (by omega)]
    · rw [hp]; dsimp only; omega
    · have hs : (demoMap false true ⟨true, true, false⟩).size 0 = 10000 := rfl
      simp only [backed, hp, hs, decide_eq_true_eq]
      omega
  obtain ⟨k1, e1, s⟩ := store_maps w0 hmaps rfl rfl (i := 10) (by decide) 77
  have hlive : Live t k1 ⟨4096000, 8192⟩ 1000 2 := by
    have g := demoMap_live t false true ⟨true, true, false⟩
    refine ⟨by rw [s.fx.page]; exact g.pages, fun q a b => ?_⟩
    obtain ⟨e, he⟩ := g.mapped q a b
    rcases s.fx.pt q with hq | ⟨e', c, -, -, hq⟩
    · exact ⟨e, by rw [hq]; exact he⟩
    · exact ⟨_, hq⟩
  have hok : (k1.oracle k1.tick).ok = true := by
    rw [s.fx.oracle, s.fx.tick]; rfl
  obtain ⟨-, ha, -, -⟩ := C45_succeeds s.wf hlive (off := 0) (len := 8192) (by decide) hok
  obtain ⟨k2, he⟩ := ha .willNotNeed
  have hw := h t k1 k2 _ _ _ _ _ _ _ s.wf hlive (by decide) he (4096000 + 10)
  rw [show MapMut.adviseRange t k1 ⟨4096000, 8192⟩ 0 8192 .willNotNeed =
    MapMut.advise t k1 ⟨4096000, 8192⟩ .willNotNeed from ((whole_range s.wf hlive.pages).2.1 _).symm] at he
  have hd := C50_discards s.wf hlive (m := ⟨4096000, 8192⟩) s.maps rfl he (i := 10) (by decide)
  rw [MapMut.get, if_pos (by decide)] at hd
  have hb := s.load 10 (by decide)
  rw [if_pos (by decide)] at hb
  rw [hd, hb] at hw
  obtain ⟨-, hpriv⟩ := s.priv rfl
  have hdat := (hpriv 0 (by decide) (by
    rintro ⟨q, e, h1, h2⟩
    obtain ⟨-, -, rfl⟩ := demoMap_pt h1
    cases h2)).1
  rw [hdat] at hw
  revert hw
  decide

end Vmap
