import Verif.Spec.RingAt
import Verif.Proofs.Ring
import Verif.Proofs.InfiniteRing
import Verif.Props.RingMap
import Verif.Proofs.Darwin
/- Helper lemmas: every reachable ring represents a specification state. -/
namespace Vmap
open Spec Kernel

/-- The page of an address inside the mapping is inside the mapping. -/
theorem page_inside {k : Kernel} {ptr len a : Nat} (hp : k.page ∣ ptr)
    (hpos : 0 < k.page) (h1 : ptr ≤ a) (h2 : a < ptr + 2 * len) :
    ptr ≤ a / k.page * k.page ∧ a / k.page * k.page < ptr + 2 * len := by
  obtain ⟨c, hc⟩ := hp
  have h3 : c ≤ a / k.page := (Nat.le_div_iff_mul_le hpos).mpr (by rw [Nat.mul_comm]; omega)
  have h4 := Nat.mul_le_mul_right k.page h3
  have h5 := Nat.div_mul_le_self a k.page
  rw [Nat.mul_comm c] at h4
  omega

/-- The page of an address outside the mapping is outside the mapping. -/
theorem page_outside {k : Kernel} {ptr len a : Nat} (hp : k.page ∣ ptr) (hl : k.page ∣ len)
    (hpos : 0 < k.page) (h : ¬ (ptr ≤ a ∧ a < ptr + 2 * len)) :
    ¬ (ptr ≤ a / k.page * k.page ∧ a / k.page * k.page < ptr + 2 * len) := by
  rintro ⟨h1, h2⟩
  apply h
  have h5 := Nat.div_mul_le_self a k.page
  refine ⟨by omega, ?_⟩
  obtain ⟨c, hc⟩ := hp
  obtain ⟨d, hd⟩ := hl
  have h6 : a / k.page < c + 2 * d := by
    apply Nat.lt_of_mul_lt_mul_right (a := k.page)
    rw [Nat.add_mul, Nat.mul_assoc 2, Nat.mul_comm c, Nat.mul_comm d, ← hc, ← hd]
    exact h2
  have h7 := Nat.div_add_mod a k.page
  have h8 := Nat.mod_lt a hpos
  have h9 : k.page * (a / k.page + 1) ≤ k.page * (c + 2 * d) := Nat.mul_le_mul_left _ (by omega)
  rw [Nat.mul_add, Nat.mul_add, Nat.mul_left_comm k.page 2 d, ← hc, ← hd] at h9
  omega

/-- An entry that stays what it is. -/
theorem pt_kept {k k' : Kernel} {p : Nat} {e : Pte} (h : k'.pt p = k.pt p) (he : k.pt p = some e) :
    ∃ l, k'.pt p = some { e with locked := l } := ⟨e.locked, by rw [h, he]⟩

theorem Kernel.Mirror.apart {t : Target} {k k' : Kernel} {ptr len o} (w : Wf t k)
    (h : k.Mirror t ptr len o) (a : Apart t k k' ptr len) :
    k'.Mirror t ptr len o ∧ k'.data o = k.data o := by
  have hs : ∀ i, i < 2 * len → k'.Shows (ptr + i) o (i % len) ∧ k'.data o = k.data o := by
    intro i hi
    obtain ⟨e, h1, h2, h3, h4, h5, h6, h7, h8⟩ := h.shows' i hi
    have hin := page_inside (a := ptr + i) (len := len) h.ptr_dvd w.page_pos (by omega) (by omega)
    have hd := a.data _ e hin.1 hin.2 h1
    obtain ⟨l, hl⟩ := a.pt _ e hin.1 hin.2 h1
    refine ⟨⟨{ e with locked := l }, ?_, h2, h3, h4, h5, h6, ?_, ?_⟩, by rw [← h6]; exact hd.1⟩
    · rw [a.page]; exact hl
    · rw [a.page]; exact h7
    · simp only [backed, a.page, hd.2]; exact h8
  refine ⟨⟨h.len_pos, by rw [a.page]; exact h.ptr_dvd, by rw [a.page]; exact h.len_dvd, h.fits,
    fun i hi => (hs i hi).1⟩, (hs 0 (by have := h.len_pos; omega)).2⟩

theorem Owned.apart {t : Target} {k k' : Kernel} {ptr len o} (w : Wf t k)
    (h : k.Mirror t ptr len o) (a : Apart t k k' ptr len) : Owned k' ptr len o := by
  have h0 := h.len_pos
  obtain ⟨e, h1, h2, h3, h4, h5, h6, h7, h8⟩ := h.shows' 0 (by omega)
  have hin := page_inside (a := ptr + 0) (len := len) h.ptr_dvd w.page_pos (by omega) (by omega)
  intro q e' he' ho
  rw [a.page]
  exact a.alone _ e hin.1 hin.2 h1 q e' he' (by rw [h6]; exact ho)

theorem Owned.sameButData {k k' : Kernel} {ptr len o} (h : Owned k ptr len o)
    (s : SameButData k k') : Owned k' ptr len o := by
  intro p e
  rw [s.pt, s.page]
  exact h p e

theorem win_congr {k k' : Kernel} {o : Obj} (h : k'.data o = k.data o) (len a : Nat) :
    win k' o len a = win k o len a := by
  simp [win, h]

theorem Made.owned {t : Target} {k k' : Kernel} {hint ptr len : Nat} (w : Wf t k)
    (m : Made t k k' hint ptr len) :
    ∃ o, k'.Mirror t ptr len o ∧ Owned k' ptr len o ∧ (∀ i, k'.data o (i % len) = 0) := by
  obtain ⟨o, h1, h2, h3⟩ := m.mirror
  refine ⟨o, h1, ?_, ?_⟩
  · intro p e he ho
    rw [m.keeps.page]
    apply Decidable.byContradiction
    intro hn
    rw [m.others p hn] at he
    have := w.objs p e he
    rcases ho with ho | ho
    · omega
    · have := this.2 _ ho; omega
  · intro i
    have hz := m.zero
    rw [loadN_shows (o := o) (fun i => i % len) (2 * len) ptr h1.shows'] at hz
    injection hz with hz
    have hi : i % len < len := Nat.mod_lt _ h1.len_pos
    have := congrArg (fun l => l[i % len]?) hz
    simp [show i % len < 2 * len by omega] at this
    exact this

theorem Made.circular {t : Target} {k k' : Kernel} {hint ptr len : Nat} (w : Wf t k)
    (m : Made t k k' hint ptr len) : k'.Circular t ptr len := by
  obtain ⟨o, h1, h2, -⟩ := m.owned w
  exact ⟨o, h1, h2⟩

/-- The specification state of a new ring. -/
def freshWin (cap : Nat) : Spec.Win := ⟨List.replicate cap 0, [], 0⟩

theorem win_zero {k : Kernel} {o : Obj} {len : Nat} (h : ∀ i, k.data o (i % len) = 0) (a : Nat) :
    win k o len a = List.replicate len 0 := by
  rw [List.eq_replicate_iff]
  refine ⟨by simp, ?_⟩
  intro b hb
  simp only [win, List.mem_map] at hb
  obtain ⟨i, -, rfl⟩ := hb
  exact h _

theorem ringRep_new {t : Target} {k0 k : Kernel} {hint : Nat} {r : Ring} (w : Wf t k0)
    (hh : hint < t.lim) (hr : Ring.new t k0 hint = .ok (k, .ok r)) :
    ∃ o, RingRep t k r o (freshWin r.len) ∧ Owned k r.ptr r.len o ∧ Wf t k := by
  obtain ⟨m, -, -⟩ := C15_C25_ring_new t k0 k w hint hh r hr
  obtain ⟨o, h1, h2, h3⟩ := m.owned w
  have hpos : r.rpos = 0 ∧ r.wpos = 0 := by
    simp only [Ring.new, bind, Except.bind] at hr
    split at hr
    · cases hr
    · split at hr
      · cases hr
      · split at hr
        · cases hr
        · simp only [pure, Except.pure] at hr
          injection hr with hr
          injection hr with _ hr
          injection hr with hr
          subst hr
          exact ⟨rfl, rfl⟩
  refine ⟨o, ⟨h1, ?_, hpos.2, by simp [freshWin, hpos], ?_⟩, h2, m.wf⟩
  · simp [freshWin, win_zero h3]
  · rw [hpos.2]
    have := h1.fits
    have := h1.len_pos
    exact ⟨by simp [lim64], .inr (by omega)⟩

/-- A new ring on any Unix. -/
theorem ringRep_make {t : Target} {k0 k : Kernel} {hint : Nat} {r : Ring} (w : Wf t k0)
    (hh : RingHint t k0 hint) (hr : Ring.make t k0 hint = .ok (k, .ok r)) :
    RingAt t k r 0 ∧ ∃ o, RingRep t k r o (freshWin r.len) ∧ Owned k r.ptr r.len o ∧ Wf t k := by
  cases hm : k0.mach with
  | false =>
    rw [Ring.make_posix hm] at hr
    exact ⟨.new w hh.1 hr, ringRep_new w hh.1 hr⟩
  | true =>
    obtain ⟨k', res, e, -, h2⟩ := Ring.make_good w (hh.2 hm)
    rw [e] at hr
    injection hr with hr
    injection hr with hr1 hr2
    subst hr1
    obtain ⟨m, h1, h2⟩ := h2 r hr2
    obtain ⟨o, a1, a2, a3⟩ := m.owned w
    refine ⟨.placed m.wf ⟨o, a1, a2⟩ h1 h2, o, ⟨a1, ?_, h2, by simp [freshWin, h1, h2], ?_⟩, a2, m.wf⟩
    · simp [freshWin, win_zero a3]
    · rw [h2]
      have := a1.fits
      have := a1.len_pos
      exact ⟨by simp [lim64], .inr (by omega)⟩

/-- Every reachable ring represents a specification state. -/
theorem RingAt.inv {t : Target} {k : Kernel} {r : Ring} {n : Nat} (h : RingAt t k r n) :
    ∃ o s, RingRep t k r o s ∧ s.total = n ∧ Owned k r.ptr r.len o ∧ Wf t k := by
  induction h with
  | new wf hl made =>
    obtain ⟨o, h1, h2, h3⟩ := ringRep_new wf hl made
    exact ⟨o, _, h1, rfl, h2, h3⟩
  | @placed k r wf circular rpos wpos =>
    obtain ⟨o, h1, h2⟩ := circular
    refine ⟨o, ⟨win k o r.len r.wpos, [], 0⟩, ⟨h1, by simp, wpos, by simp [rpos, wpos], ?_⟩, rfl,
      h2, wf⟩
    rw [wpos]
    have := h1.fits
    have := h1.len_pos
    exact ⟨by simp [lim64], .inr (by omega)⟩
  | @call k k' r r' n w op x before space below run ih =>
    obtain ⟨o, s, h1, h2, h3, h4⟩ := ih
    have hw := h1.writeLen_eq
    rw [space] at hw
    injection hw with hw
    have ht : (s.step op).1.total = passed op n w := by
      cases op <;> simp [Win.step, passed, h2, hw]
    obtain ⟨k1, r1, e, h1', p1, p2, sd, d⟩ := ring_step h1 op (by rw [ht]; exact below)
    rw [e] at run
    injection run with run
    injection run with run _
    injection run with run1 run2
    subst run1 run2
    refine ⟨o, _, h1', ht, ?_, h4.sameButData sd⟩
    rw [p1, p2]; exact h3.sameButData sd
  | @other k k' r n before apart ih =>
    obtain ⟨o, s, h1, h2, h3, h4⟩ := ih
    obtain ⟨m, d⟩ := h1.mirror.apart h4 apart
    exact ⟨o, s, ⟨m, by rw [win_congr d]; exact h1.all, h1.total, h1.qlen, h1.pos⟩, h2,
      Owned.apart h4 h1.mirror apart, apart.wf⟩

/-- Loads elsewhere are unaffected when only object `o` changes. -/
theorem Owned.load {t : Target} {k k' : Kernel} {ptr len : Nat} {o : Obj} (w : Wf t k)
    (m : k.Mirror t ptr len o) (h : Owned k ptr len o) (s : SameButData k k')
    (d : ∀ o', o' ≠ o → k'.data o' = k.data o') (a : Nat)
    (ha : ¬ (ptr ≤ a ∧ a < ptr + 2 * len)) : k'.load a = k.load a := by
  have hout := page_outside m.ptr_dvd m.len_dvd w.page_pos ha
  simp only [Kernel.load, s.pt, s.page]
  cases he : k.pt (a / k.page) with
  | none => rfl
  | some e =>
    have h1 : ¬ (e.obj = o ∨ e.copy = some o) := fun ho => hout (h _ e he ho)
    have hb : k'.backed e = k.backed e := by simp only [backed, s.page, s.size]
    have hcell : k'.data (k'.cell e (a % k.page)).1 (k'.cell e (a % k.page)).2 =
        k.data (k.cell e (a % k.page)).1 (k.cell e (a % k.page)).2 := by
      simp only [cell, s.page]
      cases hc : e.copy with
      | none => simp only []; rw [d _ (fun h => h1 (.inl h))]
      | some c => simp only []; rw [d _ (fun h => h1 (.inr (by rw [hc, h])))]
    simp only [hb, hcell]

theorem infRep_new {t : Target} {k0 k : Kernel} {hint : Nat} {r : InfiniteRing} (w : Wf t k0)
    (hh : hint < t.lim) (hr : InfiniteRing.new t k0 hint = .ok (k, .ok r)) :
    ∃ o, InfRep t k r o ⟨List.replicate r.len 0, [], 0⟩ ∧ Owned k r.ptr r.len o ∧ Wf t k := by
  obtain ⟨m, -, -⟩ := C15_C25_infinite_new t k0 k w hint hh r hr
  obtain ⟨o, h1, h2, h3⟩ := m.owned w
  have hpos : r.rlen = 0 ∧ r.wpos = 0 := by
    simp only [InfiniteRing.new, bind, Except.bind] at hr
    split at hr
    · cases hr
    · split at hr
      · cases hr
      · split at hr
        · cases hr
        · simp only [pure, Except.pure] at hr
          injection hr with hr
          injection hr with _ hr
          injection hr with hr
          subst hr
          exact ⟨rfl, rfl⟩
  refine ⟨o, ⟨h1, ?_, hpos.2, by simp [hpos], by rw [hpos.1]; exact Nat.zero_le _, ?_⟩, h2, m.wf⟩
  · simp [win_zero h3]
  · rw [hpos.2]
    have := h1.fits
    have := h1.len_pos
    exact ⟨by simp [lim64], .inr (by omega)⟩

/-- `write_all`: as `write` of the last bytes. -/
theorem inf_writeAll {t : Target} {k : Kernel} {r : InfiniteRing} {o : Obj} {s : Spec.Lossy}
    (h : InfRep t k r o s) (bs : List Byte)
    (hb : r.wpos + min bs.length r.len < posBound t r.len) :
    ∃ k' r', r.writeAll t k bs = .ok (k', r') ∧
      InfRep t k' r' o (s.append (lastN r.len bs)) ∧
      r'.ptr = r.ptr ∧ r'.len = r.len ∧ SameButData k k' ∧
      (∀ o', o' ≠ o → k'.data o' = k.data o') := by
  have ht : (lastN r.len bs).length = min bs.length r.len := by simp [lastN]; omega
  obtain ⟨k', e, sd, d, r', hfe, p1, p2, h'⟩ := h.written (lastN r.len bs)
    (by omega) (posOk_of_lt (by rw [ht]; exact hb))
  refine ⟨k', r', ?_, h', p1, p2, sd, d⟩
  rw [ht] at hfe
  have hd : bs.drop (bs.length - min bs.length r.len) = lastN r.len bs := by
    simp only [lastN]; congr 1; omega
  simp only [InfiniteRing.writeAll, h.asWriteSlice_eq, bind, Except.bind, Nat.min_comm r.len]
  rw [subU_ok (by omega)]
  simp only [hd, ht, ne_eq, not_true_eq_false, if_false, pure, Except.pure, e, hfe]

/-- Every reachable infinite ring represents a specification state. -/
theorem InfAt.inv {t : Target} {k : Kernel} {r : InfiniteRing} {n : Nat} (h : InfAt t k r n) :
    ∃ o s, InfRep t k r o s ∧ s.total = n ∧ Owned k r.ptr r.len o ∧ Wf t k := by
  induction h with
  | new wf hl made =>
    obtain ⟨o, h1, h2, h3⟩ := infRep_new wf hl made
    exact ⟨o, _, h1, rfl, h2, h3⟩
  | @placed k r wf circular rlen wpos =>
    obtain ⟨o, h1, h2⟩ := circular
    refine ⟨o, ⟨win k o r.len r.wpos, [], 0⟩, ⟨h1, by simp, wpos, by simp [rlen], by omega, ?_⟩,
      rfl, h2, wf⟩
    rw [wpos]
    have := h1.fits
    have := h1.len_pos
    exact ⟨by simp [lim64], .inr (by omega)⟩
  | @call k k' r r' n w op x before space noClear below feed run ih =>
    obtain ⟨o, s, h1, h2, h3, h4⟩ := ih
    have hw : w = s.all.length := by
      rw [InfiniteRing.writeLen] at space
      injection space with hw
      rw [h1.all_len, hw]
    have ht : (s.step op).1.total = passed op n w := by
      cases op <;> simp [Lossy.step, passed, h2, hw, Lossy.append]
      exact absurd rfl noClear
    obtain ⟨k1, r1, e, h1', p1, p2, sd, d⟩ := inf_step h1 op (by rw [ht]; exact below) feed
    rw [e] at run
    injection run with run
    injection run with run _
    injection run with run1 run2
    subst run1 run2
    refine ⟨o, _, h1', ht, ?_, h4.sameButData sd⟩
    rw [p1, p2]; exact h3.sameButData sd
  | @all k k' r r' n bs before below run ih =>
    obtain ⟨o, s, h1, h2, h3, h4⟩ := ih
    obtain ⟨k1, r1, e, h1', p1, p2, sd, d⟩ := inf_writeAll h1 bs (by
      rw [h1.total, h2]; exact below)
    rw [e] at run
    injection run with run
    injection run with run1 run2
    subst run1 run2
    refine ⟨o, _, h1', ?_, ?_, h4.sameButData sd⟩
    · show s.total + (lastN r.len bs).length = n + min bs.length r.len
      rw [h2]; simp [lastN]; omega
    · rw [p1, p2]; exact h3.sameButData sd
  | @other k k' r n before apart ih =>
    obtain ⟨o, s, h1, h2, h3, h4⟩ := ih
    obtain ⟨m, d⟩ := h1.mirror.apart h4 apart
    exact ⟨o, s, ⟨m, by rw [win_congr d]; exact h1.all, h1.total, h1.qlen, h1.le, h1.pos⟩, h2,
      Owned.apart h4 h1.mirror apart, apart.wf⟩

end Vmap
