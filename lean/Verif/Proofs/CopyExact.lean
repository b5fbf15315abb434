import Verif.Proofs.Arrives
import Verif.Proofs.BufCopyInf
/- Helper lemmas for the exact forms of C172 and C174. -/
namespace Vmap
open Kernel Spec

section
variable {τ : Type} {tab : SysTable} {t : Target} {k0 : Kernel} {W : Writer τ}

theorem Spec.TakesGiven.honest (hW : TakesGiven W) : W.Honest := by
  intro s data
  rw [hW.write]
  exact Nat.le_refl _

theorem piece_calls (wf : Wf t k0) (hW : TakesGiven W) {w : World} (h : Reach tab t k0 w) (fuel rounds : Nat) {j n : Nat}
    {b : BufWriter (τ × List WriteEvent)} (hj : w.held j = some (.ring b.buf n)) {q : List Byte}
    (hq : b.buffered t w.k = .ok q) (below : n + (rounds + 2) * b.buf.len < posBound t b.buf.len)
    {p : List Byte} (hp : n + p.length < posBound t b.buf.len) :
    ∃ b' ev n' w', b.writeAll W.spy t (fuel + 2) (rounds + 2) w.k p = .ok (w'.k, b', [], .ok ()) ∧
      OnlyCalls tab t (· = j) w w' ∧ w'.held j = some (.ring b'.buf n') ∧ n' ≤ n + (rounds + 2) * b.buf.len ∧
      b'.buf.len = b.buf.len ∧ b'.buffered t w'.k = .ok (arrive b.buf.len q p).2 ∧
      b'.inner.2 = b.inner.2 ++ ev ∧ received ev = (arrive b.buf.len q p).1 := by
  obtain ⟨b', acc, left, x, ev, n', q', w', e, c, hj', hn, l, hq', lg, -, -, -, -, -⟩ :=
    writeAll_calls wf h W hW.honest (fuel + 2) (rounds + 2) hj hq below p
  obtain ⟨q1, sp, v⟩ := RingAt.view ((h.inv wf).live j _ hj).1
  rw [BufWriter.buffered, v.readSlice] at hq
  injection hq with hq
  subst hq
  obtain ⟨k2, b2, n2, sp2, ev2, e2, v2, -, -, lg2, r2⟩ := piece_all hW v hp fuel rounds
  rw [e2] at e
  injection e with e; injection e with f1 e; injection e with f2 e; injection e with f3 f4
  subst f1 f2 f3 f4
  exact ⟨b2, ev2, n', w', e2, c, hj', hn, l, v2.readSlice, lg2, r2⟩

theorem ring_to_writer_all (wf : Wf t k0) (hW : TakesGiven W) (fuel rounds : Nat) {size : Nat} (pos : 0 < size)
    {i j cap : Nat} (hij : i ≠ j) :
    ∀ (steps : Nat) {w : World} (_ : Reach tab t k0 w) {m : Nat} {a : Ring} {qa qw : List Byte}
    {b : BufWriter (τ × List WriteEvent)}
    (_ : ∃ s : Spec.Win, w.held i = some (.ring a s.total) ∧ HoldsRing t w i cap s ∧ s.q = qa)
    (_ : w.held j = some (.ring b.buf m))
    (_ : b.buffered t w.k = .ok qw)
    (_ : m + steps * ((rounds + 2) * b.buf.len) + qa.length < posBound t b.buf.len)
    (_ : qa.length < steps) (len : Nat),
    ∃ a' b' m' qw' ew w',
      Ring.copyToWriter W.spy t (fuel + 2) (rounds + 2) size steps w.k a b len =
        .ok (w'.k, a', b', .ok (len + qa.length)) ∧
      OnlyCalls tab t (fun l => l = i ∨ l = j) w w' ∧
      (∃ s : Spec.Win, w'.held i = some (.ring a' s.total) ∧ HoldsRing t w' i cap s ∧ s.q = []) ∧
      w'.held j = some (.ring b'.buf m') ∧ b'.buffered t w'.k = .ok qw' ∧
      b'.inner.2 = b.inner.2 ++ ew ∧ received ew ++ qw' = arrival b.buf.len qw (cut size steps qa) := by
  intro steps
  induction steps with
  | zero => intro w h m a qa qw b hi hj hqw _ hs len; omega
  | succ steps ih =>
    intro w h m a qa qw b hi hj hqw hbw hs len
    simp only [Nat.add_mul steps, Nat.one_mul] at hbw
    have src := ring_source (tab := tab) (k0 := k0) wf i cap
    obtain ⟨a1, w1, e1, k1, c1, hi1⟩ := src.read h hi size
    have rc1 := c1.reach h
    have m1 : OnlyCalls tab t (fun l => l = i ∨ l = j) w w1 := c1.mono (fun l h => .inl h)
    obtain ⟨hj1, hqw1⟩ := calls_keep wf (Ne.symm hij) h c1 hj hqw
    have hlen : (qa.take size).length = min size qa.length := List.length_take
    rw [Ring.copyToWriter, e1]
    simp only [bind, Except.bind]
    by_cases h0 : (qa.take size).length = 0
    · rw [if_pos h0]
      have hz : qa = [] := List.eq_nil_of_length_eq_zero (by omega)
      subst hz
      exact ⟨a1, b, m, qw, [], w1, by rw [k1]; rfl, m1, by simpa using hi1, hj1, hqw1, by simp,
        by simp [received, cut, arrival]⟩
    · rw [if_neg h0, if_neg (by omega)]
      have hne : qa ≠ [] := by intro hc; subst hc; simp at h0
      obtain ⟨b2, ev2, m2, w2, e2, c2, hj2, hm2, l2, hq2, lg2, r2⟩ :=
        piece_calls wf hW rc1 fuel rounds hj1 hqw1 (by omega) (p := qa.take size) (by omega)
      rw [k1] at e2
      rw [e2]
      have mm := m1.trans (c2.mono (fun l h => .inr h))
      have hi2 := keep_calls (tab := tab) (t := t) (k0 := k0)
        (H := fun w => ∃ s : Spec.Win, w.held i = some (.ring a1 s.total) ∧ HoldsRing t w i cap s ∧
          s.q = qa.drop size) hij
        (fun {w} r k => src.keep r k) rc1 hi1 c2
      simp only
      have hd : (qa.drop size).length = qa.length - size := List.length_drop
      obtain ⟨a3, b3, m3, qw3, ew3, w3, e3, c3, hi3, hj3, hqw3, lg3, r3⟩ :=
        ih (c2.reach rc1) hi2 hj2 hq2 (by rw [l2]; omega) (by omega) (len + (qa.take size).length)
      refine ⟨a3, b3, m3, qw3, ev2 ++ ew3, w3, ?_, mm.trans c3, hi3, hj3, hqw3,
        by rw [lg3, lg2, List.append_assoc], ?_⟩
      · rw [e3, Nat.add_assoc, show (qa.take size).length + (qa.drop size).length = qa.length by omega]
      · rw [received_append, List.append_assoc, r3, r2, l2, cut, if_neg hne, arrival]

theorem inf_to_writer_all (wf : Wf t k0) (hW : TakesGiven W) (fuel rounds : Nat) {size : Nat} (pos : 0 < size)
    {i j cap : Nat} (hij : i ≠ j) :
    ∀ (steps : Nat) {w : World} (_ : Reach tab t k0 w) {m : Nat} {a : InfiniteRing} {qa qw : List Byte}
    {b : BufWriter (τ × List WriteEvent)}
    (_ : ∃ s, w.held i = some (.inf a s.total) ∧ HoldsInf t w i cap s ∧ s.q = qa)
    (_ : w.held j = some (.ring b.buf m))
    (_ : b.buffered t w.k = .ok qw)
    (_ : m + steps * ((rounds + 2) * b.buf.len) + qa.length < posBound t b.buf.len)
    (_ : qa.length < steps) (len : Nat),
    ∃ a' b' m' qw' ew w',
      InfiniteRing.copyToWriter W.spy t (fuel + 2) (rounds + 2) size steps w.k a b len =
        .ok (w'.k, a', b', .ok (len + qa.length)) ∧
      OnlyCalls tab t (fun l => l = i ∨ l = j) w w' ∧
      (∃ s, w'.held i = some (.inf a' s.total) ∧ HoldsInf t w' i cap s ∧ s.q = []) ∧
      w'.held j = some (.ring b'.buf m') ∧ b'.buffered t w'.k = .ok qw' ∧
      b'.inner.2 = b.inner.2 ++ ew ∧ received ew ++ qw' = arrival b.buf.len qw (cut size steps qa) := by
  intro steps
  induction steps with
  | zero => intro w h m a qa qw b hi hj hqw _ hs len; omega
  | succ steps ih =>
    intro w h m a qa qw b hi hj hqw hbw hs len
    simp only [Nat.add_mul steps, Nat.one_mul] at hbw
    have src := inf_source (tab := tab) (k0 := k0) wf i cap
    obtain ⟨a1, w1, e1, k1, c1, hi1⟩ := src.read h hi size
    have rc1 := c1.reach h
    have m1 : OnlyCalls tab t (fun l => l = i ∨ l = j) w w1 := c1.mono (fun l h => .inl h)
    obtain ⟨hj1, hqw1⟩ := calls_keep wf (Ne.symm hij) h c1 hj hqw
    have hlen : (qa.take size).length = min size qa.length := List.length_take
    rw [InfiniteRing.copyToWriter, e1]
    simp only [bind, Except.bind]
    by_cases h0 : (qa.take size).length = 0
    · rw [if_pos h0]
      have hz : qa = [] := List.eq_nil_of_length_eq_zero (by omega)
      subst hz
      exact ⟨a1, b, m, qw, [], w1, by rw [k1]; rfl, m1, by simpa using hi1, hj1, hqw1, by simp,
        by simp [received, cut, arrival]⟩
    · rw [if_neg h0, if_neg (by omega)]
      have hne : qa ≠ [] := by intro hc; subst hc; simp at h0
      obtain ⟨b2, ev2, m2, w2, e2, c2, hj2, hm2, l2, hq2, lg2, r2⟩ :=
        piece_calls wf hW rc1 fuel rounds hj1 hqw1 (by omega) (p := qa.take size) (by omega)
      rw [k1] at e2
      rw [e2]
      have mm := m1.trans (c2.mono (fun l h => .inr h))
      have hi2 := keep_calls (tab := tab) (t := t) (k0 := k0)
        (H := fun w => ∃ s, w.held i = some (.inf a1 s.total) ∧ HoldsInf t w i cap s ∧ s.q = qa.drop size) hij
        (fun {w} r k => src.keep r k) rc1 hi1 c2
      simp only
      have hd : (qa.drop size).length = qa.length - size := List.length_drop
      obtain ⟨a3, b3, m3, qw3, ew3, w3, e3, c3, hi3, hj3, hqw3, lg3, r3⟩ :=
        ih (c2.reach rc1) hi2 hj2 hq2 (by rw [l2]; omega) (by omega) (len + (qa.take size).length)
      refine ⟨a3, b3, m3, qw3, ev2 ++ ew3, w3, ?_, mm.trans c3, hi3, hj3, hqw3,
        by rw [lg3, lg2, List.append_assoc], ?_⟩
      · rw [e3, Nat.add_assoc, show (qa.take size).length + (qa.drop size).length = qa.length by omega]
      · rw [received_append, List.append_assoc, r3, r2, l2, cut, if_neg hne, arrival]

end
end Vmap
