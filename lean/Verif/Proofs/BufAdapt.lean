import Verif.Model.BufAdapt
import Verif.Proofs.BufCopyInf
/- Helper lemmas for C175 and C176. -/
namespace Vmap
open Kernel Spec

section
variable {σ τ : Type} {tab : SysTable} {t : Target} {k0 : Kernel}

theorem take_to_end' (wf : Wf t k0) (R : Reader σ) (hR : R.Honest) {i : Nat} :
    ∀ (steps : Nat) (dst : Nat → List Byte) (_ : ∀ i, dst i ≠ []) {w : World}
    (_ : Reach tab t k0 w) {n : Nat} {r : BufReader (σ × List ReadEvent)}
    (_ : w.held i = some (.ring r.buf n)) {q : List Byte} (_ : r.buffer t w.k = .ok q)
    (_ : n + steps * r.buf.len < posBound t r.buf.len) (limit : Nat) (acc : List Byte),
    ∃ r' x n' q' er got w',
      BufReader.takeToEnd R.spy t steps dst w.k r limit acc = .ok (w'.k, r', limit - got.length, acc ++ got, x) ∧
      OnlyCalls tab t (· = i) w w' ∧ w'.held i = some (.ring r'.buf n') ∧
      r'.buffer t w'.k = .ok q' ∧ r'.inner.2 = r.inner.2 ++ er ∧ q ++ taken er = got ++ q' ∧ got.length ≤ limit ∧
      (limit = 0 → er = []) ∧ (r'.buf.len = r.buf.len ∧ n' ≤ n + steps * r.buf.len) ∧
      match x with
      | .ok () => got.length = limit ∨ (q' = [] ∧ SaidEof er)
      | .err e => SaidErr er e
      | .unwound => SaidPanic er
      | .pending => steps ≤ got.length + interrupts er := by
  intro steps
  induction steps with
  | zero =>
    intro dst hd w h n r hi q hq _ limit acc
    exact ⟨r, .pending, n, q, [], [], w, by simp [BufReader.takeToEnd, pure, Except.pure], .refl, hi, hq, by simp,
      by simp [taken], by simp, fun _ => rfl, ⟨rfl, by omega⟩, by simp⟩
  | succ steps ih =>
    intro dst hd w h n r hi q hq hb limit acc
    simp only [Nat.add_mul, Nat.one_mul] at hb
    by_cases h0 : limit = 0
    · subst h0
      exact ⟨r, .ok (), n, q, [], [], w, by simp [BufReader.takeToEnd, pure, Except.pure], .refl, hi, hq, by simp,
        by simp [taken], by simp, fun _ => rfl, ⟨rfl, by omega⟩, .inl rfl⟩
    have hne : (dst 0).take limit ≠ [] := by
      intro hc
      have := congrArg List.length hc
      rw [List.length_take, List.length_nil] at this
      have := List.length_pos_iff.mpr (hd 0)
      omega
    obtain ⟨r1, d, x, n1, q1, ev1, w1, e1, c1, hi1, hn1, l1, hq1, lg1, st⟩ :=
      read_calls wf h R hR hi hq (by omega) ((dst 0).take limit)
    have rc1 := c1.reach h
    rw [BufReader.takeToEnd, if_neg h0, e1]
    simp only [bind, Except.bind]
    cases st with
    | got a le dlen cons eof intr =>
      cases a with
      | zero =>
        obtain ⟨hq, hq', he⟩ := eof rfl hne
        exact ⟨r1, .ok (), n1, q1, ev1, [], w1, by simp [pure, Except.pure], c1, hi1, hq1, lg1,
          by simpa using cons.symm, by simp, fun hc => absurd hc h0, ⟨l1, by rw [Nat.add_mul]; omega⟩, .inr ⟨hq', he⟩⟩
      | succ a =>
        simp only
        rw [List.length_take] at le
        rw [List.length_take] at dlen
        rw [if_neg (by omega)]
        have hlen : (d.take (a + 1)).length = a + 1 := by rw [List.length_take]; omega
        obtain ⟨r3, x, n3, q3, er, got, w3, e3, c3, hi3, hq3, lg3, sp3, gl, -, ⟨l3, b3⟩, res⟩ :=
          ih (fun i => dst (i + 1)) (fun i => hd (i + 1)) rc1 hi1 hq1
            (by rw [l1]; omega) (limit - (a + 1)) (acc ++ d.take (a + 1))
        refine ⟨r3, x, n3, q3, ev1 ++ er, d.take (a + 1) ++ got, w3, ?_, c1.trans c3, hi3, hq3,
          by rw [lg3, lg1, List.append_assoc], ?_, by rw [List.length_append]; omega, fun hc => absurd hc h0,
          ⟨l3.trans l1, by rw [l1] at b3; rw [Nat.add_mul]; omega⟩, ?_⟩
        · rw [e3, List.length_append, hlen, Nat.sub_sub, List.append_assoc]
        · rw [taken_append, ← List.append_assoc, ← cons, List.append_assoc, sp3]
          simp only [List.append_assoc]
        · cases x with
          | ok c =>
            refine res.imp (fun hg => ?_) (fun hg => ⟨hg.1, hg.2.after _⟩)
            rw [List.length_append]; omega
          | err e => exact res.after _
          | unwound => exact res.after _
          | pending =>
            have := res
            simp only at this
            rw [List.length_append, interrupts_append]; omega
    | failed e stored dlen resp =>
      rename_i x
      simp only
      have ht : taken [x] = [] := by rw [taken_one, ReadEvent.bytes, resp]
      by_cases hk : e.kind = .interrupted
      · rw [if_pos hk]
        obtain ⟨r3, y, n3, q3, er, got, w3, e3, c3, hi3, hq3, lg3, sp3, gl, -, ⟨l3, b3⟩, res⟩ :=
          ih (fun i => dst (i + 1)) (fun i => hd (i + 1)) rc1 hi1 hq1
            (by rw [l1]; omega) limit acc
        have hc : interrupts [x] = 1 := by simp [interrupts, resp, hk]
        refine ⟨r3, y, n3, q3, [x] ++ er, got, w3, e3, c1.trans c3, hi3, hq3,
          by rw [lg3, lg1, List.append_assoc], by rw [taken_append, ht, List.nil_append]; exact sp3, gl,
          fun hc => absurd hc h0,
          ⟨l3.trans l1, by rw [l1] at b3; rw [Nat.add_mul]; omega⟩, ?_⟩
        cases y with
        | ok c => exact res.imp id (fun hg => ⟨hg.1, hg.2.after _⟩)
        | err e => exact res.after _
        | unwound => exact res.after _
        | pending =>
          have := res
          simp only at this
          rw [interrupts_append, hc]; omega
      · rw [if_neg hk]
        exact ⟨r1, .err e, n1, _, _, [], w1, by simp [pure, Except.pure], c1, hi1, hq1, lg1,
          by simp [ht], by simp, fun hc => absurd hc h0, ⟨l1, by rw [Nat.add_mul]; omega⟩, hk, [], x, stored, rfl, resp⟩
    | unwound stored resp =>
      rename_i x
      have ht : taken [x] = [] := by rw [taken_one, ReadEvent.bytes, resp]
      exact ⟨r1, .unwound, n1, _, _, [], w1, by simp [pure, Except.pure], c1, hi1, hq1, lg1,
        by simp [ht], by simp, fun hc => absurd hc h0, ⟨l1, by rw [Nat.add_mul]; omega⟩, [], x, stored, rfl, resp⟩

theorem take_to_end (wf : Wf t k0) (R : Reader σ) (hR : R.Honest) {i : Nat}
    (steps : Nat) (dst : Nat → List Byte) (hd : ∀ i, dst i ≠ []) {w : World}
    (h : Reach tab t k0 w) {n : Nat} {r : BufReader (σ × List ReadEvent)}
    (hi : w.held i = some (.ring r.buf n)) {q : List Byte} (hq : r.buffer t w.k = .ok q)
    (below : n + steps * r.buf.len < posBound t r.buf.len) (limit : Nat) (acc : List Byte) :
    ∃ r' x n' q' er got w',
      BufReader.takeToEnd R.spy t steps dst w.k r limit acc = .ok (w'.k, r', limit - got.length, acc ++ got, x) ∧
      OnlyCalls tab t (· = i) w w' ∧ w'.held i = some (.ring r'.buf n') ∧
      r'.buffer t w'.k = .ok q' ∧ r'.inner.2 = r.inner.2 ++ er ∧ q ++ taken er = got ++ q' ∧ got.length ≤ limit ∧
      (limit = 0 → er = []) ∧
      match x with
      | .ok () => got.length = limit ∨ (q' = [] ∧ SaidEof er)
      | .err e => SaidErr er e
      | .unwound => SaidPanic er
      | .pending => steps ≤ got.length + interrupts er := by
  obtain ⟨r', x, n', q', er, got, w', e, c, h1, h2, h3, h4, h5, h6, -, res⟩ :=
    take_to_end' wf R hR steps dst hd h hi hq below limit acc
  exact ⟨r', x, n', q', er, got, w', e, c, h1, h2, h3, h4, h5, h6, res⟩

theorem next_byte (wf : Wf t k0) (R : Reader σ) (hR : R.Honest) {i : Nat} :
    ∀ (steps : Nat) {w : World}
    (_ : Reach tab t k0 w) {n : Nat} {r : BufReader (σ × List ReadEvent)}
    (_ : w.held i = some (.ring r.buf n)) {q : List Byte} (_ : r.buffer t w.k = .ok q)
    (_ : n + steps * r.buf.len < posBound t r.buf.len),
    ∃ r' x n' q' er w',
      BufReader.nextByte R.spy t steps w.k r = .ok (w'.k, r', x) ∧
      OnlyCalls tab t (· = i) w w' ∧ w'.held i = some (.ring r'.buf n') ∧
      r'.buffer t w'.k = .ok q' ∧ r'.inner.2 = r.inner.2 ++ er ∧
      match x with
      | .ok (some c) => q ++ taken er = c :: q'
      | .ok none => q ++ taken er = [] ∧ q' = [] ∧ SaidEof er
      | .err e => q ++ taken er = q' ∧ SaidErr er e
      | .unwound => q ++ taken er = q' ∧ SaidPanic er
      | .pending => q ++ taken er = q' ∧ interrupts er = steps := by
  intro steps
  induction steps with
  | zero =>
    intro w h n r hi q hq _
    exact ⟨r, .pending, n, q, [], w, rfl, .refl, hi, hq, by simp, by simp [taken], rfl⟩
  | succ steps ih =>
    intro w h n r hi q hq hb
    simp only [Nat.add_mul, Nat.one_mul] at hb
    obtain ⟨r1, d, x, n1, q1, ev1, w1, e1, c1, hi1, hn1, l1, hq1, lg1, st⟩ :=
      read_calls wf h R hR hi hq (by omega) [0]
    have rc1 := c1.reach h
    rw [BufReader.nextByte, e1]
    simp only [bind, Except.bind]
    cases st with
    | got a le dlen cons eof intr =>
      cases a with
      | zero =>
        obtain ⟨hq, hq', he⟩ := eof rfl (by simp)
        refine ⟨r1, .ok none, n1, q1, ev1, w1, rfl, c1, hi1, hq1, lg1, ?_, hq', he⟩
        rw [← cons, hq']; simp
      | succ a =>
        match d, dlen with
        | [c], _ =>
          refine ⟨r1, .ok (some c), n1, q1, ev1, w1, rfl, c1, hi1, hq1, lg1, ?_⟩
          simp only
          rw [← cons]; simp
    | failed e stored dlen resp =>
      rename_i x
      simp only
      have ht : taken [x] = [] := by rw [taken_one, ReadEvent.bytes, resp]
      by_cases hk : e.kind = .interrupted
      · rw [if_pos hk]
        obtain ⟨r3, y, n3, q3, er, w3, e3, c3, hi3, hq3, lg3, res⟩ := ih rc1 hi1 hq1 (by rw [l1]; omega)
        have hc : interrupts [x] = 1 := by simp [interrupts, resp, hk]
        refine ⟨r3, y, n3, q3, [x] ++ er, w3, e3, c1.trans c3, hi3, hq3,
          by rw [lg3, lg1, List.append_assoc], ?_⟩
        rw [taken_append, ht, List.nil_append]
        match y, res with
        | .ok (some c), res => exact res
        | .ok none, res => exact ⟨res.1, res.2.1, res.2.2.after _⟩
        | .err e, res => exact ⟨res.1, res.2.after _⟩
        | .unwound, res => exact ⟨res.1, res.2.after _⟩
        | .pending, res =>
          refine ⟨res.1, ?_⟩
          rw [interrupts_append, hc, res.2]; omega
      · rw [if_neg hk]
        exact ⟨r1, .err e, n1, _, _, w1, rfl, c1, hi1, hq1, lg1,
          by simp [ht], hk, [], x, stored, rfl, resp⟩
    | unwound stored resp =>
      rename_i x
      have ht : taken [x] = [] := by rw [taken_one, ReadEvent.bytes, resp]
      exact ⟨r1, .unwound, n1, _, _, w1, rfl, c1, hi1, hq1, lg1,
        by simp [ht], [], x, stored, rfl, resp⟩

theorem write_fmt (wf : Wf t k0) (W : Writer τ) (hW : W.Honest) (fuel rounds : Nat) {j : Nat} :
    ∀ (ps : List (List Byte)) {w : World} (_ : Reach tab t k0 w) {m : Nat} {qw : List Byte}
    {b : BufWriter (τ × List WriteEvent)} (_ : w.held j = some (.ring b.buf m))
    (_ : b.buffered t w.k = .ok qw) (_ : m + ps.length * (rounds * b.buf.len) < posBound t b.buf.len),
    ∃ b' x m' qw' ew acc left w',
      b.writeFmt W.spy t fuel rounds w.k ps = .ok (w'.k, b', x) ∧
      OnlyCalls tab t (· = j) w w' ∧
      w'.held j = some (.ring b'.buf m') ∧ b'.buffered t w'.k = .ok qw' ∧ b'.buf.len = b.buf.len ∧
      b'.inner.2 = b.inner.2 ++ ew ∧ ps.flatten = acc ++ left ∧ (received ew ++ qw').Perm (qw ++ acc) ∧
      (ps = [] ∨ (qw = [] ∧ ps.length = 1) ∨ qw.length + ps.flatten.length < b.buf.len →
        received ew ++ qw' = qw ++ acc) ∧
      match x with
      | .ok () => left = []
      | .err e => left ≠ [] ∧ WriteFailed ew e ∧ e.kind ≠ .interrupted
      | .unwound => left ≠ [] ∧ WritePanicked ew
      | .pending => rounds ≤ acc.length + refused ew ∨ fuel ≤ b.buf.len + refused ew := by
  intro ps
  induction ps with
  | nil =>
    intro w h m qw b hj hqw _
    exact ⟨b, .ok (), m, qw, [], [], [], w, rfl, .refl, hj, hqw, rfl, by simp, by simp, by simp [received],
      by simp [received], rfl⟩
  | cons p ps ih =>
    intro w h m qw b hj hqw hbw
    simp only [List.length_cons, Nat.add_mul, Nat.one_mul] at hbw
    obtain ⟨b2, acc, left, y, ev2, m2, q2, w2, e2, c2, hj2, hm2, l2, hq2, lg2, hcap, hdat, pm2, or2, res2⟩ :=
      writeAll_calls wf h W hW fuel rounds hj hqw (by omega) p
    rw [BufWriter.writeFmt, e2]
    simp only [bind, Except.bind]
    have hsplit : (p :: ps).flatten = acc ++ (left ++ ps.flatten) := by
      rw [List.flatten_cons, hdat, List.append_assoc]
    have hord : p :: ps = [] ∨ (qw = [] ∧ (p :: ps).length = 1) ∨
        qw.length + (p :: ps).flatten.length < b.buf.len → received ev2 ++ q2 = qw ++ acc := by
      rintro (hc | hc | hc)
      · cases hc
      · exact or2 (.inl hc.1)
      · rw [List.flatten_cons, List.length_append] at hc
        exact or2 (.inr (by omega))
    have hne : left ≠ [] → left ++ ps.flatten ≠ [] := by
      intro h1 h2; exact h1 (List.append_eq_nil_iff.mp h2).1
    cases y with
    | err e =>
      exact ⟨b2, .err e, m2, q2, ev2, acc, _, w2, rfl, c2, hj2, hq2, l2, lg2, hsplit, pm2, hord, hne res2.1, res2.2⟩
    | unwound =>
      exact ⟨b2, .unwound, m2, q2, ev2, acc, _, w2, rfl, c2, hj2, hq2, l2, lg2, hsplit, pm2, hord, hne res2.1, res2.2⟩
    | pending =>
      exact ⟨b2, .pending, m2, q2, ev2, acc, _, w2, rfl, c2, hj2, hq2, l2, lg2, hsplit, pm2, hord,
        res2.imp id (fun hz => by omega)⟩
    | ok u =>
      have hleft : left = [] := res2
      subst hleft
      rw [List.append_nil] at hdat
      rw [List.nil_append] at hsplit
      simp only
      obtain ⟨b3, z, m3, qw3, ew3, mv3, left3, w3, e3, c3, hj3, hqw3, l3, lg3, sp3,
        pm3, or3, res3⟩ := ih (c2.reach h) hj2 hq2 (by rw [l2]; omega)
      refine ⟨b3, z, m3, qw3, ev2 ++ ew3, acc ++ mv3, left3, w3, e3, c2.trans c3, hj3,
        hqw3, l3.trans l2, by rw [lg3, lg2, List.append_assoc], ?_, ?_, ?_, ?_⟩
      · rw [hsplit, sp3, List.append_assoc]
      · rw [received_append, List.append_assoc]
        refine (List.Perm.append_left _ pm3).trans ?_
        rw [← List.append_assoc, ← List.append_assoc]
        exact List.Perm.append_right _ pm2
      · intro hc
        have hl := pm2.length_eq
        simp only [List.length_append] at hl
        have h3 := or3 (by
          rcases hc with hc | hc | hc
          · cases hc
          · refine .inl (List.eq_nil_of_length_eq_zero ?_)
            have := hc.2
            rw [List.length_cons] at this; omega
          · rw [List.flatten_cons, List.length_append, hdat] at hc
            exact .inr (.inr (by rw [l2]; omega)))
        rw [received_append, List.append_assoc, h3, ← List.append_assoc, hord hc, List.append_assoc]
      · cases z with
        | ok c => exact res3
        | err e => exact ⟨res3.1, res3.2.1.after _, res3.2.2⟩
        | unwound => exact ⟨res3.1, res3.2.after _⟩
        | pending =>
          have := res3
          simp only [l2] at this
          rw [List.length_append, refused_append]; omega

end
end Vmap
