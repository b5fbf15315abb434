import Verif.Model.Copy
import Verif.Proofs.CopyExact
/- Helper lemmas for the exact form of C127. -/
namespace Vmap
open Kernel Spec

section
variable {τ : Type} {tab : SysTable} {t : Target} {k0 : Kernel} {W : Writer τ}

/-- Copying from a `BufReader` to a `BufWriter` over a writer that takes all it is given. -/
theorem reader_to_writer_all {σ : Type} (wf : Wf t k0) (R : Reader σ) (hR : R.Honest) (hW : TakesGiven W)
    (fuel rounds : Nat) {size : Nat} {i j : Nat} (hij : i ≠ j) :
    ∀ (steps : Nat) (dst : Nat → List Byte) (_ : ∀ i, dst i ≠ []) (_ : ∀ i, (dst i).length ≤ size) {w : World}
    (_ : Reach tab t k0 w) {n m : Nat} {r : BufReader (σ × List ReadEvent)} {b : BufWriter (τ × List WriteEvent)}
    (_ : w.held i = some (.ring r.buf n)) (_ : w.held j = some (.ring b.buf m)) {qr qw : List Byte}
    (_ : r.buffer t w.k = .ok qr) (_ : b.buffered t w.k = .ok qw)
    (_ : n + steps * r.buf.len < posBound t r.buf.len)
    (_ : m + steps * ((rounds + 2) * b.buf.len) + size < posBound t b.buf.len) (len : Nat),
    ∃ r' b' x n' m' qr' qw' er ew ps w',
      ioCopy R.spy W.spy t (fuel + 2) (rounds + 2) steps dst w.k r b len = .ok (w'.k, r', b', x) ∧
      OnlyCalls tab t (fun l => l = i ∨ l = j) w w' ∧
      w'.held i = some (.ring r'.buf n') ∧ w'.held j = some (.ring b'.buf m') ∧
      r'.buffer t w'.k = .ok qr' ∧ b'.buffered t w'.k = .ok qw' ∧
      r'.inner.2 = r.inner.2 ++ er ∧ b'.inner.2 = b.inner.2 ++ ew ∧
      (∀ p ∈ ps, p ≠ [] ∧ p.length ≤ size) ∧ qr ++ taken er = ps.flatten ++ qr' ∧
      received ew ++ qw' = arrival b.buf.len qw ps ∧
      match x with
      | .ok c => c = len + ps.flatten.length ∧ qr' = [] ∧ SaidEof er
      | .err e => SaidErr er e
      | .unwound => SaidPanic er
      | .pending => steps = ps.length + interrupts er := by
  intro steps
  induction steps with
  | zero =>
    intro dst hd hs w h n m r b hi hj qr qw hqr hqw _ _ len
    exact ⟨r, b, .pending, n, m, qr, qw, [], [], [], w, rfl, .refl, hi, hj, hqr, hqw, by simp, by simp, by simp,
      by simp [taken], by simp [received, arrival], by simp [interrupts]⟩
  | succ steps ih =>
    intro dst hd hs w h n m r b hi hj qr qw hqr hqw hbr hbw len
    simp only [Nat.add_mul steps, Nat.one_mul] at hbr hbw
    obtain ⟨r1, d, x, n1, q1, ev1, w1, e1, c1, hi1, hn1, l1, hq1, lg1, st⟩ :=
      read_calls wf h R hR hi hqr (by omega) (dst 0)
    have rc1 := c1.reach h
    have m1 : OnlyCalls tab t (fun l => l = i ∨ l = j) w w1 := c1.mono (fun l h => .inl h)
    obtain ⟨hj1, hqw1⟩ := calls_keep wf (Ne.symm hij) h c1 hj hqw
    rw [ioCopy, e1]
    simp only [bind, Except.bind]
    cases st with
    | got a le dlen cons eof intr =>
      cases a with
      | zero =>
        obtain ⟨hq, hq', he⟩ := eof rfl (hd 0)
        exact ⟨r1, b, .ok len, n1, m, q1, qw, ev1, [], [], w1, rfl, m1, hi1, hj1, hq1, hqw1, lg1, by simp, by simp,
          by simpa using cons.symm, by simp [received, arrival], by simp, hq', he⟩
      | succ a =>
        simp only
        rw [if_neg (by omega)]
        have hlen : (d.take (a + 1)).length = a + 1 := by rw [List.length_take]; omega
        have hs0 := hs 0
        obtain ⟨b2, ev2, m2, w2, e2, c2, hj2, hm2, l2, hq2, lg2, r2⟩ :=
          piece_calls wf hW rc1 fuel rounds hj1 hqw1 (by omega) (p := d.take (a + 1)) (by omega)
        obtain ⟨hi2, hqr2⟩ := calls_keep wf hij rc1 c2 hi1 hq1
        rw [e2]
        simp only
        obtain ⟨r3, b3, x, n3, m3, q3, qw3, er, ew, ps, w3, e3, c3, hi3, hj3, hq3, hqw3, lg3, lw3, hp3, sp3, ar3, res⟩ :=
          ih (fun i => dst (i + 1)) (fun i => hd (i + 1)) (fun i => hs (i + 1)) (c2.reach rc1) hi2 hj2 hqr2 hq2
            (by rw [l1]; omega) (by rw [l2]; omega) (len + (a + 1))
        refine ⟨r3, b3, x, n3, m3, q3, qw3, ev1 ++ er, ev2 ++ ew, d.take (a + 1) :: ps, w3, e3,
          m1.trans ((c2.mono (fun l h => .inr h)).trans c3), hi3, hj3, hq3, hqw3,
          by rw [lg3, lg1, List.append_assoc], by rw [lw3, lg2, List.append_assoc], ?_, ?_, ?_, ?_⟩
        · intro p hp
          rcases List.mem_cons.mp hp with hp | hp
          · subst hp
            refine ⟨fun hc => ?_, by omega⟩
            rw [hc] at hlen; simp at hlen
          · exact hp3 p hp
        · rw [taken_append, ← List.append_assoc, ← cons, List.append_assoc, sp3, List.flatten_cons]
          simp only [List.append_assoc]
        · rw [received_append, List.append_assoc, ar3, r2, l2, arrival]
        · cases x with
          | ok c =>
            refine ⟨?_, res.2.1, res.2.2.after _⟩
            rw [res.1, List.flatten_cons, List.length_append]; omega
          | err e => exact res.after _
          | unwound => exact res.after _
          | pending =>
            have := res
            simp only at this
            rw [List.length_cons, interrupts_append, intr]; omega
    | failed e stored dlen resp =>
      rename_i x
      simp only
      have ht : taken [x] = [] := by rw [taken_one, ReadEvent.bytes, resp]
      by_cases hk : e.kind = .interrupted
      · rw [if_pos hk]
        obtain ⟨r3, b3, y, n3, m3, q3, qw3, er, ew, ps, w3, e3, c3, hi3, hj3, hq3, hqw3, lg3, lw3, hp3, sp3, ar3, res⟩ :=
          ih (fun i => dst (i + 1)) (fun i => hd (i + 1)) (fun i => hs (i + 1)) rc1 hi1 hj1 hq1 hqw1
            (by rw [l1]; omega) (by omega) len
        have hc : interrupts [x] = 1 := by simp [interrupts, resp, hk]
        refine ⟨r3, b3, y, n3, m3, q3, qw3, [x] ++ er, ew, ps, w3, e3, m1.trans c3, hi3, hj3, hq3, hqw3,
          by rw [lg3, lg1, List.append_assoc], lw3, hp3, by rw [taken_append, ht, List.nil_append]; exact sp3, ar3, ?_⟩
        cases y with
        | ok c => exact ⟨res.1, res.2.1, res.2.2.after _⟩
        | err e => exact res.after _
        | unwound => exact res.after _
        | pending =>
          have := res
          simp only at this
          rw [interrupts_append, hc]; omega
      · rw [if_neg hk]
        exact ⟨r1, b, .err e, n1, m, _, qw, _, [], [], w1, rfl, m1, hi1, hj1, hq1, hqw1, lg1, by simp, by simp,
          by simp [ht], by simp [received, arrival], hk, [], x, stored, rfl, resp⟩
    | unwound stored resp =>
      rename_i x
      have ht : taken [x] = [] := by rw [taken_one, ReadEvent.bytes, resp]
      exact ⟨r1, b, .unwound, n1, m, _, qw, _, [], [], w1, rfl, m1, hi1, hj1, hq1, hqw1, lg1, by simp, by simp,
        by simp [ht], by simp [received, arrival], [], x, stored, rfl, resp⟩

end
end Vmap
