import Verif.Model.BufCopyInf
import Verif.Proofs.BufCopy
import Verif.Proofs.RingCopy
/- Helper lemmas for C173. -/
namespace Vmap
open Kernel Spec

section
variable {σ τ : Type} {tab : SysTable} {t : Target} {k0 : Kernel}

/-- Calls on a ring, as steps of the program. -/
theorem execAll_calls (wf : Wf t k0) {j : Nat} :
    ∀ {ops : List RingOp} {w : World} {r r' : Ring} {n : Nat} {k' : Kernel} {xs : List Resp},
    Reach tab t k0 w → w.held j = some (.ring r n) →
    n + ops.countP grows * r.len < posBound t r.len →
    r.execAll t w.k ops = .ok ((k', r'), xs) →
    ∃ n', OnlyCalls tab t (· = j) w (w.upd k' j (some (.ring r' n'))) ∧
      n' ≤ n + ops.countP grows * r.len ∧ r'.len = r.len := by
  intro ops
  induction ops with
  | nil =>
    intro w r r' n k' xs h hj hb run
    injection run with run; injection run with h1 h2; injection h1 with h1 h3
    subst h1 h3
    refine ⟨n, ?_, Nat.le_add_right _ _, rfl⟩
    rw [World.Inv.upd_self hj]; exact .refl
  | cons op ops ih =>
    intro w r r' n k' xs h hj hb run
    simp only [Ring.execAll] at run
    obtain ⟨⟨⟨k1, r1⟩, x⟩, e1, run⟩ := bind_ok run
    obtain ⟨⟨⟨k2, r2⟩, ys⟩, e2, run⟩ := bind_ok run
    injection run with run; injection run with h1 h2; injection h1 with h1 h3
    subst h1 h3
    obtain ⟨at_, cl⟩ := (h.inv wf).live j _ hj
    obtain ⟨o, s, a1, a2, a3, a4⟩ := at_.inv
    have hw := a1.writeLen_eq
    have hlen := a1.len_eq
    rw [List.countP_cons] at hb ⊢
    have hp : passed op n s.spare.length ≤ n + (if grows op then 1 else 0) * r.len := by
      cases op <;> simp only [passed, grows, if_true, if_false, Bool.false_eq_true] <;> omega
    have hsum : (ops.countP grows + if grows op = true then 1 else 0) * r.len =
        ops.countP grows * r.len + (if grows op = true then 1 else 0) * r.len := Nat.add_mul _ _ _
    have ht : (s.step op).1.total = passed op n s.spare.length := by
      cases op <;> simp [Win.step, passed, a2]
    obtain ⟨k1', r1', e1', -, p1, p2, -, -⟩ := ring_step a1 op (by rw [ht]; omega)
    rw [e1] at e1'
    injection e1' with e1'; injection e1' with e1' e1''; injection e1' with f1 f2
    subst f1 f2
    have st : w.step tab t (.ringOp j op) =
        .ok (w.upd k1 j (some (.ring r1 (passed op n s.spare.length)))) := by
      simp only [World.step, hj, hw, e1, bind, Except.bind, pure, Except.pure]
    have c1 : OnlyCalls tab t (· = j) w (w.upd k1 j (some (.ring r1 (passed op n s.spare.length)))) := by
      refine .step (op := .ringOp j op) .refl rfl rfl ?_ st
      intro r2 n2 l hr hl
      rw [hj] at hr; injection hr with hr; injection hr with g1 g2
      subst g1 g2
      rw [hw] at hl; injection hl with hl; subst hl
      omega
    obtain ⟨n', g1, g2, g3⟩ := ih (c1.reach h) (upd_eq w) (by rw [p2]; omega) e2
    rw [upd_upd] at g1
    rw [p2] at g2 g3
    exact ⟨n', c1.trans g1, by omega, g3⟩

theorem Uses.calls (wf : Wf t k0) {j : Nat} {w : World} {r r' : Ring} {n c : Nat} {k' : Kernel}
    (h : Reach tab t k0 w) (hj : w.held j = some (.ring r n)) (below : n + c * r.len < posBound t r.len)
    (u : Uses t w.k r c k' r') :
    ∃ n', OnlyCalls tab t (· = j) w (w.upd k' j (some (.ring r' n'))) ∧ n' ≤ n + c * r.len ∧ r'.len = r.len := by
  obtain ⟨ops, xs, e, hc⟩ := u
  have hm := Nat.mul_le_mul_right r.len hc
  obtain ⟨n', h1, h2, h3⟩ := execAll_calls wf h hj (by omega) e
  exact ⟨n', h1, by omega, h3⟩

/-- Calls on other rings leave the readable bytes of a ring alone. -/
theorem calls_keep (wf : Wf t k0) {i j : Nat} (hij : i ≠ j) {w w' : World} (h : Reach tab t k0 w)
    (c : OnlyCalls tab t (· = j) w w') {r : Ring} {n : Nat} (hi : w.held i = some (.ring r n)) {q : List Byte}
    (hq : readSliceBytes t w.k r t.usizeMax = .ok q) :
    w'.held i = some (.ring r n) ∧ readSliceBytes t w'.k r t.usizeMax = .ok q := by
  obtain ⟨q1, sp, v⟩ := RingAt.view ((h.inv wf).live i _ hi).1
  rw [v.readSlice] at hq
  injection hq with hq
  subst hq
  obtain ⟨o, rep⟩ := v.rep
  have g : HoldsRing t w i r.len ⟨sp, q1, n⟩ := ⟨r, o, hi, rfl, rep⟩
  have key := keep_calls (tab := tab) (t := t) (k0 := k0)
    (H := fun w => w.held i = some (.ring r n) ∧ HoldsRing t w i r.len ⟨sp, q1, n⟩) hij
    (fun {w} hr hh {w'} {op} sane st ht => by
      obtain ⟨-, g', e⟩ := hh.2.other wf hr sane st ht
      exact ⟨by rw [e]; exact hh.1, g'⟩) h ⟨hi, g⟩ c
  obtain ⟨v', -, -⟩ := key.2.view wf (c.reach h) key.1
  exact ⟨key.1, v'.readSlice⟩

theorem read_calls (wf : Wf t k0) {w : World} (h : Reach tab t k0 w) (R : Reader σ) (honest : R.Honest) {i n : Nat}
    {r : BufReader (σ × List ReadEvent)} (hi : w.held i = some (.ring r.buf n)) {q : List Byte}
    (hq : r.buffer t w.k = .ok q) (below : n + r.buf.len < posBound t r.buf.len) (dst : List Byte) :
    ∃ r' d x n' q' ev w', r.read R.spy t w.k dst = .ok (w'.k, r', d, x) ∧
      OnlyCalls tab t (· = i) w w' ∧ w'.held i = some (.ring r'.buf n') ∧ n' ≤ n + r.buf.len ∧
      r'.buf.len = r.buf.len ∧ r'.buffer t w'.k = .ok q' ∧
      r'.inner.2 = r.inner.2 ++ ev ∧ ReadStep q dst ev q' d x := by
  obtain ⟨q1, sp, v⟩ := RingAt.view ((h.inv wf).live i _ hi).1
  rw [BufReader.buffer, v.readSlice] at hq
  injection hq with hq
  subst hq
  obtain ⟨k', r', d, x, n1, q', sp', ev, e, v', -, l, lg, st⟩ := read_step R honest v below dst
  obtain ⟨n', h1, h2, h3⟩ := (rd_read_uses e).calls wf h hi (by omega)
  exact ⟨r', d, x, n', q', ev, _, e, h1, upd_eq w, by omega, l, v'.readSlice, lg, st⟩

theorem reader_to_inf (wf : Wf t k0) (R : Reader σ) (hR : R.Honest) {i j cap : Nat} (hij : i ≠ j) :
    ∀ (steps : Nat) (dst : Nat → List Byte) (_ : ∀ i, dst i ≠ []) {w : World}
    (_ : Reach tab t k0 w) {n : Nat} {r : BufReader (σ × List ReadEvent)} {b : InfiniteRing} {s : Lossy}
    (_ : w.held i = some (.ring r.buf n)) (_ : w.held j = some (.inf b s.total)) (_ : HoldsInf t w j cap s)
    {qr : List Byte} (_ : r.buffer t w.k = .ok qr) (_ : n + steps * r.buf.len < posBound t r.buf.len)
    (_ : s.total + steps * cap < posBound t cap) (len : Nat),
    ∃ r' b' x n' s' qr' er moved w',
      BufReader.copyToInfinite R.spy t steps dst w.k r b len = .ok (w'.k, r', b', x) ∧
      OnlyCalls tab t (fun l => l = i ∨ l = j) w w' ∧ w'.held i = some (.ring r'.buf n') ∧
      w'.held j = some (.inf b' s'.total) ∧ HoldsInf t w' j cap s' ∧ s'.q = lastN cap (s.q ++ moved) ∧
      r'.buffer t w'.k = .ok qr' ∧
      r'.inner.2 = r.inner.2 ++ er ∧ qr ++ taken er = moved ++ qr' ∧
      match x with
      | .ok c => c = len + moved.length ∧ qr' = [] ∧ SaidEof er
      | .err e => SaidErr er e
      | .unwound => SaidPanic er
      | .pending => steps ≤ moved.length + interrupts er := by
  intro steps
  induction steps with
  | zero =>
    intro dst hd w h n r b s hi hj hs qr hqr _ _ len
    refine ⟨r, b, .pending, n, s, qr, [], [], w, rfl, .refl, hi, hj, hs, ?_, hqr, by simp, by simp [taken], by simp⟩
    obtain ⟨r1, o, hi', hl, rep⟩ := id hs
    have hc : s.all.length = cap := by rw [rep.all_len, hl]
    have : s.all.length = s.old.length + s.q.length := by simp [Lossy.all]
    rw [List.append_nil, lastN_all (by omega)]
  | succ steps ih =>
    intro dst hd w h n r b s hi hj hs qr hqr hbr hbw len
    simp only [Nat.add_mul, Nat.one_mul] at hbr hbw
    have hcap : s.all.length = cap := by
      obtain ⟨r, o, hi, hl, rep⟩ := id hs
      rw [rep.all_len, hl]
    have hall : s.all.length = s.old.length + s.q.length := by simp [Lossy.all]
    have same : s.q = lastN cap (s.q ++ []) := by rw [List.append_nil, lastN_all (by omega)]
    obtain ⟨r1, d, x, n1, q1, ev1, w1, e1, c1, hi1, hn1, l1, hq1, lg1, st⟩ :=
      read_calls wf h R hR hi hqr (by omega) (dst 0)
    have rc1 := c1.reach h
    have m1 : OnlyCalls tab t (fun l => l = i ∨ l = j) w w1 := c1.mono (fun l h => .inl h)
    obtain ⟨hj1, hs1⟩ : w1.held j = some (.inf b s.total) ∧ HoldsInf t w1 j cap s :=
      keep_calls (tab := tab) (t := t) (k0 := k0)
        (H := fun w => w.held j = some (.inf b s.total) ∧ HoldsInf t w j cap s) (Ne.symm hij)
        (fun {w} r k => (inf_sink wf j cap).keep r k) h ⟨hj, hs⟩ c1
    rw [BufReader.copyToInfinite, e1]
    simp only [bind, Except.bind]
    cases st with
    | got a le dlen cons eof intr =>
      cases a with
      | zero =>
        obtain ⟨hq, hq', he⟩ := eof rfl (hd 0)
        exact ⟨r1, b, .ok len, n1, s, q1, ev1, [], w1, rfl, m1, hi1, hj1, hs1, same, hq1, lg1,
          by simpa using cons.symm, by simp, hq', he⟩
      | succ a =>
        simp only
        rw [if_neg (by omega)]
        have hlen : (d.take (a + 1)).length = a + 1 := by rw [List.length_take]; omega
        obtain ⟨b2, w2, e2, c2, hj2, hs2⟩ := (inf_sink wf j cap).write rc1 ⟨hj1, hs1⟩ (d.take (a + 1)) (by omega)
        have htt : (s.append (lastN cap (d.take (a + 1)))).total = s.total + min (d.take (a + 1)).length cap := by
          simp only [Lossy.append, lastN, List.length_drop]; omega
        obtain ⟨hi2, hq2⟩ := calls_keep wf hij rc1 c2 hi1 hq1
        rw [e2]
        simp only
        obtain ⟨r3, b3, x, n3, s3, q3, er, moved, w3, e3, c3, hi3, hj3, hs3, sq3, hq3, lg3, sp3, res⟩ :=
          ih (fun i => dst (i + 1)) (fun i => hd (i + 1)) (c2.reach rc1) hi2 hj2 hs2 hq2
            (by rw [l1]; omega) (by rw [htt]; omega) (len + (a + 1))
        refine ⟨r3, b3, x, n3, s3, q3, ev1 ++ er, d.take (a + 1) ++ moved, w3, e3,
          m1.trans ((c2.mono (fun l h => .inr h)).trans c3), hi3, hj3, hs3, ?_, hq3,
          by rw [lg3, lg1, List.append_assoc], ?_, ?_⟩
        · rw [sq3, append_q hcap, lastN_lastN, lastN_front, List.append_assoc]
        · rw [taken_append, ← List.append_assoc, ← cons, List.append_assoc, sp3]
          simp only [List.append_assoc]
        · cases x with
          | ok c =>
            refine ⟨?_, res.2.1, res.2.2.after _⟩
            rw [res.1, List.length_append]; omega
          | err e => exact res.after _
          | unwound => exact res.after _
          | pending =>
            have := res
            simp only at this
            rw [List.length_append, interrupts_append]; omega
    | failed e stored dlen resp =>
      rename_i x
      simp only
      have ht : taken [x] = [] := by rw [taken_one, ReadEvent.bytes, resp]
      by_cases hk : e.kind = .interrupted
      · rw [if_pos hk]
        obtain ⟨r3, b3, y, n3, s3, q3, er, moved, w3, e3, c3, hi3, hj3, hs3, sq3, hq3, lg3, sp3, res⟩ :=
          ih (fun i => dst (i + 1)) (fun i => hd (i + 1)) rc1 hi1 hj1 hs1 hq1
            (by rw [l1]; omega) (by omega) len
        have hc : interrupts [x] = 1 := by simp [interrupts, resp, hk]
        refine ⟨r3, b3, y, n3, s3, q3, [x] ++ er, moved, w3, e3, m1.trans c3, hi3, hj3, hs3, sq3, hq3,
          by rw [lg3, lg1, List.append_assoc], by rw [taken_append, ht, List.nil_append]; exact sp3, ?_⟩
        cases y with
        | ok c => exact ⟨res.1, res.2.1, res.2.2.after _⟩
        | err e => exact res.after _
        | unwound => exact res.after _
        | pending =>
          have := res
          simp only at this
          rw [interrupts_append, hc]; omega
      · rw [if_neg hk]
        exact ⟨r1, b, .err e, n1, s, _, _, [], w1, rfl, m1, hi1, hj1, hs1, same, hq1, lg1,
          by simp [ht], hk, [], x, stored, rfl, resp⟩
    | unwound stored resp =>
      rename_i x
      have ht : taken [x] = [] := by rw [taken_one, ReadEvent.bytes, resp]
      exact ⟨r1, b, .unwound, n1, s, _, _, [], w1, rfl, m1, hi1, hj1, hs1, same, hq1, lg1,
        by simp [ht], [], x, stored, rfl, resp⟩

theorem writeAll_calls (wf : Wf t k0) {w : World}
    (h : Reach tab t k0 w) (W : Writer τ) (honest : W.Honest) (fuel rounds : Nat) {j n : Nat}
    {b : BufWriter (τ × List WriteEvent)} (hj : w.held j = some (.ring b.buf n)) {q : List Byte}
    (hq : b.buffered t w.k = .ok q) (below : n + rounds * b.buf.len < posBound t b.buf.len)
    (data : List Byte) :
    ∃ b' acc left x ev n' q' w', b.writeAll W.spy t fuel rounds w.k data = .ok (w'.k, b', left, x) ∧
      OnlyCalls tab t (· = j) w w' ∧ w'.held j = some (.ring b'.buf n') ∧ n' ≤ n + rounds * b.buf.len ∧
      b'.buf.len = b.buf.len ∧ b'.buffered t w'.k = .ok q' ∧
      b'.inner.2 = b.inner.2 ++ ev ∧ q.length ≤ b.buf.len ∧ data = acc ++ left ∧
      (received ev ++ q').Perm (q ++ acc) ∧
      (q = [] ∨ q.length + data.length ≠ b.buf.len → received ev ++ q' = q ++ acc) ∧
      match x with
      | .ok () => left = []
      | .err e => left ≠ [] ∧ WriteFailed ev e ∧ e.kind ≠ .interrupted
      | .unwound => left ≠ [] ∧ WritePanicked ev
      | .pending => rounds ≤ acc.length + refused ev ∨ fuel ≤ q.length + refused ev := by
  obtain ⟨k', b', acc, left, x, ev, n1, q', e, -, -, l, -, hq', lg, hl, hd, pm, ord, res⟩ :=
    writeAll_in wf h W honest fuel rounds hj hq below data
  obtain ⟨n', h1, h2, h3⟩ := (writeAll_uses e).calls wf h hj below
  exact ⟨b', acc, left, x, ev, n', q', _, e, h1, upd_eq w, h2, l, hq', lg, hl, hd, pm, ord, res⟩

theorem inf_to_writer (wf : Wf t k0) (W : Writer τ) (hW : W.Honest) (fuel rounds : Nat) {size : Nat} (pos : 0 < size)
    {i j cap : Nat} (hij : i ≠ j) :
    ∀ (steps : Nat) {w : World} (_ : Reach tab t k0 w) {m : Nat} {a : InfiniteRing} {qa qw : List Byte}
    {b : BufWriter (τ × List WriteEvent)}
    (_ : ∃ s, w.held i = some (.inf a s.total) ∧ HoldsInf t w i cap s ∧ s.q = qa)
    (_ : w.held j = some (.ring b.buf m))
    (_ : b.buffered t w.k = .ok qw) (_ : m + steps * (rounds * b.buf.len) < posBound t b.buf.len) (len : Nat),
    ∃ a' b' x m' qa' qw' ew moved lost w',
      InfiniteRing.copyToWriter W.spy t fuel rounds size steps w.k a b len = .ok (w'.k, a', b', x) ∧
      OnlyCalls tab t (fun l => l = i ∨ l = j) w w' ∧
      (∃ s, w'.held i = some (.inf a' s.total) ∧ HoldsInf t w' i cap s ∧ s.q = qa') ∧
      w'.held j = some (.ring b'.buf m') ∧ b'.buffered t w'.k = .ok qw' ∧ b'.buf.len = b.buf.len ∧
      b'.inner.2 = b.inner.2 ++ ew ∧ qa = moved ++ lost ++ qa' ∧ (received ew ++ qw').Perm (qw ++ moved) ∧
      (qa = [] ∨ (qw = [] ∧ qa.length ≤ size) ∨ qw.length + qa.length < b.buf.len →
        received ew ++ qw' = qw ++ moved) ∧
      match x with
      | .ok c => c = len + moved.length ∧ lost = [] ∧ qa' = []
      | .err e => lost ≠ [] ∧ WriteFailed ew e ∧ e.kind ≠ .interrupted
      | .unwound => lost ≠ [] ∧ WritePanicked ew
      | .pending => steps ≤ moved.length ∨ rounds ≤ moved.length + refused ew ∨
          fuel ≤ b.buf.len + refused ew := by
  intro steps
  induction steps with
  | zero =>
    intro w h m a qa qw b hi hj hqw _ len
    exact ⟨a, b, .pending, m, qa, qw, [], [], [], w, rfl, .refl, hi, hj,
      hqw, rfl, by simp, by simp, by simp [received], by simp [received], .inl (by simp)⟩
  | succ steps ih =>
    intro w h m a qa qw b hi hj hqw hbw len
    simp only [Nat.add_mul, Nat.one_mul] at hbw
    have src := inf_source (tab := tab) (k0 := k0) wf i cap
    obtain ⟨a1, w1, e1, k1, c1, hi1⟩ := src.read h hi size
    have rc1 := c1.reach h
    have m1 : OnlyCalls tab t (fun l => l = i ∨ l = j) w w1 := c1.mono (fun l h => .inl h)
    obtain ⟨hj1, hqw1⟩ := calls_keep wf (Ne.symm hij) h c1 hj hqw
    have hlen : (qa.take size).length = min size qa.length := List.length_take
    rw [InfiniteRing.copyToWriter, e1]
    simp only [bind, Except.bind]
    by_cases h0 : (qa.take size).length = 0
    · rw [if_pos h0]
      have hz : qa = [] := List.eq_nil_of_length_eq_zero (by omega)
      subst hz
      exact ⟨a1, b, .ok len, m, [], qw, [], [], [], w1, by rw [k1]; rfl, m1, by simpa using hi1, hj1, hqw1, rfl,
        by simp, by simp, by simp [received], by simp [received], by simp, rfl, rfl⟩
    · rw [if_neg h0, if_neg (by omega)]
      obtain ⟨b2, acc, left, y, ev2, m2, q2, w2, e2, c2, hj2, hm2, l2, hq2, lg2, hcap, hdat, pm2, or2, res2⟩ :=
        writeAll_calls wf rc1 W hW fuel rounds hj1 hqw1 (by omega) (qa.take size)
      rw [k1] at e2
      rw [e2]
      have mm := m1.trans (c2.mono (fun l h => .inr h))
      have hi2 := keep_calls (tab := tab) (t := t) (k0 := k0)
        (H := fun w => ∃ s, w.held i = some (.inf a1 s.total) ∧ HoldsInf t w i cap s ∧ s.q = qa.drop size) hij
        (fun {w} r k => src.keep r k) rc1 hi1 c2
      have hsplit : qa = acc ++ left ++ qa.drop size := by rw [← hdat, List.take_append_drop]
      have hord : qa = [] ∨ (qw = [] ∧ qa.length ≤ size) ∨ qw.length + qa.length < b.buf.len →
          received ev2 ++ q2 = qw ++ acc := by
        rintro (hc | hc | hc)
        · subst hc; simp at h0
        · exact or2 (.inl hc.1)
        · exact or2 (.inr (by omega))
      cases y with
      | err e =>
        exact ⟨a1, b2, .err e, m2, _, q2, ev2, acc, left, w2, rfl, mm, hi2, hj2, hq2, l2, lg2, hsplit, pm2, hord, res2⟩
      | unwound =>
        exact ⟨a1, b2, .unwound, m2, _, q2, ev2, acc, left, w2, rfl, mm, hi2, hj2, hq2, l2, lg2, hsplit, pm2, hord, res2⟩
      | pending =>
        exact ⟨a1, b2, .pending, m2, _, q2, ev2, acc, left, w2, rfl, mm, hi2, hj2, hq2, l2, lg2, hsplit, pm2, hord,
          .inr (res2.imp id (fun hz => by omega))⟩
      | ok u =>
        have hleft : left = [] := res2
        subst hleft
        rw [List.append_nil] at hdat hsplit
        have hacc : acc.length = min size qa.length := by rw [← hdat, hlen]
        simp only
        obtain ⟨a3, b3, z, m3, qa3, qw3, ew3, mv3, lost3, w3, e3, c3, hi3, hj3, hqw3, l3, lg3, sp3,
          pm3, or3, res3⟩ := ih (c2.reach rc1) hi2 hj2 hq2 (by rw [l2]; omega) (len + (qa.take size).length)
        refine ⟨a3, b3, z, m3, qa3, qw3, ev2 ++ ew3, acc ++ mv3, lost3, w3, e3, mm.trans c3, hi3, hj3,
          hqw3, l3.trans l2, by rw [lg3, lg2, List.append_assoc], ?_, ?_, ?_, ?_⟩
        · rw [List.append_assoc, List.append_assoc, ← List.append_assoc mv3, ← sp3]; exact hsplit
        · rw [received_append, List.append_assoc]
          refine (List.Perm.append_left _ pm3).trans ?_
          rw [← List.append_assoc, ← List.append_assoc]
          exact List.Perm.append_right _ pm2
        · intro hc
          have hl := pm2.length_eq
          simp only [List.length_append] at hl
          have h3 := or3 (by
            rcases hc with hc | hc | hc
            · subst hc; exact .inl List.drop_nil
            · exact .inl (List.drop_eq_nil_of_le hc.2)
            · exact .inr (.inr (by rw [l2, List.length_drop]; omega)))
          rw [received_append, List.append_assoc, h3, ← List.append_assoc, hord hc, List.append_assoc]
        · cases z with
          | ok c =>
            refine ⟨?_, res3.2⟩
            rw [res3.1, List.length_append]; omega
          | err e => exact ⟨res3.1, res3.2.1.after _, res3.2.2⟩
          | unwound => exact ⟨res3.1, res3.2.after _⟩
          | pending =>
            simp only [List.length_append, refused_append]
            simp only [l2] at res3
            omega

end
end Vmap
