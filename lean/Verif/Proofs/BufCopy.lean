import Verif.Model.BufCopy
import Verif.Spec.BufCopy
import Verif.Proofs.Copy
/- Helper lemmas for C171. -/
namespace Vmap
open Kernel Spec

section
variable {σ τ : Type} {tab : SysTable} {t : Target} {k0 : Kernel}

theorem View.readTake {k : Kernel} {r : Ring} {n : Nat} {q sp : List Byte} (v : View t k r n q sp) (m : Nat) :
    ∃ r' sp', r.read t k m = .ok (r', q.take m) ∧ View t k r' n (q.drop m) sp' ∧ r'.len = r.len := by
  obtain ⟨k', r', e, hv, p2, p1⟩ := v.step (.read m) v.below
  simp only [Ring.exec, bind, Except.bind] at e
  cases hr : r.read t k m with
  | error f => rw [hr] at e; cases e
  | ok x =>
    rw [hr] at e
    obtain ⟨a1, bs⟩ := x
    simp only [pure, Except.pure, Win.step, Except.ok.injEq, Prod.mk.injEq, Resp.bytes.injEq] at e
    obtain ⟨⟨e1, e2⟩, e3⟩ := e
    subst e1 e2 e3
    exact ⟨a1, _, rfl, hv, p2⟩

/-- A `read` of a ring in a program. -/
theorem ring_read_in (wf : Wf t k0) {w : World} (h : Reach tab t k0 w) {i n : Nat} {a : Ring}
    (hi : w.held i = some (.ring a n)) {q : List Byte} (hq : readSliceBytes t w.k a t.usizeMax = .ok q) (m : Nat) :
    ∃ a' n', a.read t w.k m = .ok (a', q.take m) ∧ Reach tab t k0 (w.upd w.k i (some (.ring a' n'))) ∧
      n' ≤ n ∧ readSliceBytes t w.k a' t.usizeMax = .ok (q.drop m) := by
  obtain ⟨q1, sp, v⟩ := RingAt.view ((h.inv wf).live i _ hi).1
  rw [v.readSlice] at hq
  injection hq with hq
  subst hq
  obtain ⟨a', sp', e, v', l⟩ := v.readTake m
  have u : Uses t w.k a 0 w.k a' := Uses.one (op := .read m) (x := .bytes (q1.take m)) (by
    simp only [Ring.exec, e, bind, Except.bind, pure, Except.pure])
  obtain ⟨n', h1, h2, h3, h4⟩ := u.world wf h hi (by have := v.below; omega)
  exact ⟨a', n', e, h1, by omega, v'.readSlice⟩

/-- A `write_all` to a ring in a program. -/
theorem ring_all_in (wf : Wf t k0) {w : World} (h : Reach tab t k0 w) {j m : Nat} {b : Ring}
    (hj : w.held j = some (.ring b m)) {q : List Byte} (hq : readSliceBytes t w.k b t.usizeMax = .ok q) {room : Nat}
    (hr : b.writeLen t = .ok room) (below : m + 2 * b.len < posBound t b.len) (bs : List Byte) :
    ∃ k' b' m', b.writeAll t w.k bs = .ok ((k', b'),
        if bs.length ≤ room then .ok () else .error (.ofKind .writeZero)) ∧
      Reach tab t k0 (w.upd k' j (some (.ring b' m'))) ∧ m' ≤ m + 2 * b.len ∧ b'.len = b.len ∧ OnlyHandle w k' j ∧
      readSliceBytes t k' b' t.usizeMax = .ok (q ++ bs.take room) ∧ b'.writeLen t = .ok (room - bs.length) := by
  obtain ⟨q1, sp, v⟩ := RingAt.view ((h.inv wf).live j _ hj).1
  rw [v.readSlice] at hq
  injection hq with hq
  subst hq
  rw [v.writeLen] at hr
  injection hr with hr
  subst hr
  have hl := v.len
  have key : ∃ k' b' n' sp', b.writeAll t w.k bs = .ok ((k', b'),
        if bs.length ≤ sp.length then .ok () else .error (.ofKind .writeZero)) ∧
      Uses t w.k b 2 k' b' ∧ View t k' b' n' (q1 ++ bs.take sp.length) sp' ∧ sp'.length = sp.length - bs.length := by
    by_cases hb : bs.length = 0
    · obtain rfl := List.eq_nil_of_length_eq_zero hb
      refine ⟨w.k, b, m, sp, ?_, (Uses.refl _ _ _).mono (by omega), by simpa using v, by simp⟩
      rw [Ring.writeAll, dif_pos hb, if_pos (by simp)]
    · obtain ⟨k1, b1, e1, v1, l1, p1⟩ := v.write bs (by omega)
      rw [Ring.writeAll, dif_neg hb]
      simp only [e1]
      by_cases hz : min bs.length sp.length = 0
      · refine ⟨k1, b1, _, _, ?_, (write_uses e1).mono (by omega), v1, by rw [List.length_drop]⟩
        rw [dif_pos hz, if_neg (by omega)]
      · rw [dif_neg hz, if_neg (by omega)]
        by_cases hf : bs.length ≤ sp.length
        · refine ⟨k1, b1, _, _, ?_, (write_uses e1).mono (by omega), v1, by rw [List.length_drop]⟩
          rw [if_pos hf, Nat.min_eq_left hf, Ring.writeAll, dif_pos (by simp)]
        · have hm : min bs.length sp.length = sp.length := Nat.min_eq_right (by omega)
          rw [hm] at v1
          have hs0 : sp.drop bs.length = [] := List.drop_eq_nil_of_le (by omega)
          rw [hs0] at v1
          obtain ⟨k2, b2, e2, v2, l2, p2⟩ := v1.write (bs.drop sp.length)
            (by rw [List.length_nil, Nat.min_zero, Nat.add_zero, l1]; omega)
          rw [List.length_nil, Nat.min_zero] at e2 v2
          rw [List.take_zero, List.append_nil, List.drop_nil] at v2
          refine ⟨k2, b2, _, _, ?_, ((write_uses e1).trans (write_uses e2)), v2, by simp; omega⟩
          rw [hm, Ring.writeAll, dif_neg (by simp; omega)]
          simp only [e2]
          rw [dif_pos trivial, if_neg hf]
  obtain ⟨k', b', n', sp', e, u, v', hs⟩ := key
  obtain ⟨m', h1, h2, h3, h4⟩ := u.world wf h hj below
  exact ⟨k', b', m', e, h1, h2, h3, h4, v'.readSlice, by rw [v'.writeLen, hs]⟩

theorem upd_ne (w : World) {k : Kernel} {i l : Nat} {x : Option Handle} (hl : l ≠ i) :
    (w.upd k i x).held l = w.held l := by simp only [World.upd, if_neg hl]

theorem upd_eq (w : World) {k : Kernel} {i : Nat} {x : Option Handle} : (w.upd k i x).held i = x := by
  simp only [World.upd, if_true]

theorem Spec.Besides.trans {i j : Nat} {w w1 w2 : World} (h1 : Besides i j w w1) (h2 : Besides i j w1 w2) :
    Besides i j w w2 := chain h1 h2

theorem Spec.Besides.first {i j : Nat} {w : World} {k : Kernel} {x : Option Handle} (o : OnlyHandle w k i) :
    Besides i j w (w.upd k i x) := fun l a _ => ⟨upd_ne w a, fun y hy => o.others l y a hy⟩

theorem Spec.Besides.second {i j : Nat} {w : World} {k : Kernel} {x : Option Handle} (o : OnlyHandle w k j) :
    Besides i j w (w.upd k j x) := fun l _ b => ⟨upd_ne w b, fun y hy => o.others l y b hy⟩

theorem Spec.Besides.still {i j : Nat} {w : World} {x : Option Handle} : Besides i j w (w.upd w.k i x) :=
  fun _ a _ => ⟨upd_ne w a, fun _ _ _ _ _ => rfl⟩

theorem reader_to_ring (wf : Wf t k0) (R : Reader σ) (hR : R.Honest) {i j : Nat} (hij : i ≠ j) :
    ∀ (steps : Nat) (dst : Nat → List Byte) (_ : ∀ i, dst i ≠ []) {w : World}
    (_ : Reach tab t k0 w) {n m : Nat} {r : BufReader (σ × List ReadEvent)} {b : Ring}
    (_ : w.held i = some (.ring r.buf n)) (_ : w.held j = some (.ring b m)) {qr qb : List Byte}
    (_ : r.buffer t w.k = .ok qr) (_ : readSliceBytes t w.k b t.usizeMax = .ok qb) {room : Nat}
    (_ : b.writeLen t = .ok room) (_ : n + steps * r.buf.len < posBound t r.buf.len)
    (_ : m + steps * (2 * b.len) < posBound t b.len) (len : Nat),
    ∃ r' b' x n' m' qr' er moved lost w',
      BufReader.copyToRing R.spy t steps dst w.k r b len = .ok (w'.k, r', b', x) ∧
      Reach tab t k0 w' ∧ w'.held i = some (.ring r'.buf n') ∧ w'.held j = some (.ring b' m') ∧ Besides i j w w' ∧
      r'.buffer t w'.k = .ok qr' ∧ readSliceBytes t w'.k b' t.usizeMax = .ok (qb ++ moved) ∧
      r'.inner.2 = r.inner.2 ++ er ∧ qr ++ taken er = moved ++ lost ++ qr' ∧ moved.length ≤ room ∧
      match x with
      | .ok c => c = len + moved.length ∧ lost = [] ∧ qr' = [] ∧ SaidEof er
      | .err e => (lost = [] ∧ SaidErr er e) ∨
          (lost ≠ [] ∧ moved.length = room ∧ e = .ofKind .writeZero)
      | .unwound => lost = [] ∧ SaidPanic er
      | .pending => lost = [] ∧ steps ≤ moved.length + interrupts er := by
  intro steps
  induction steps with
  | zero =>
    intro dst hd w h n m r b hi hj qr qb hqr hqb room hr _ _ len
    exact ⟨r, b, .pending, n, m, qr, [], [], [], w, rfl, h, hi, hj, fun _ _ _ => ⟨rfl, fun _ _ _ _ _ => rfl⟩,
      hqr, by simpa using hqb, by simp, by simp [taken], by simp, rfl, by simp⟩
  | succ steps ih =>
    intro dst hd w h n m r b hi hj qr qb hqr hqb room hr hbr hbw len
    simp only [Nat.add_mul, Nat.one_mul] at hbr hbw
    obtain ⟨k1, r1, d, x, n1, q1, ev1, e1, rc1, hn1, l1, on1, hq1, lg1, st⟩ :=
      read_in wf h R hR hi hqr (by omega) (dst 0)
    have bs1 : Besides i j w (w.upd k1 i (some (.ring r1.buf n1))) := .first on1
    have hj1 : (w.upd k1 i (some (.ring r1.buf n1))).held j = some (.ring b m) := by
      rw [upd_ne w (Ne.symm hij)]; exact hj
    have hqb1 : readSliceBytes t k1 b t.usizeMax = .ok qb := (on1.ring wf h (Ne.symm hij) hj).trans hqb
    rw [BufReader.copyToRing, e1]
    simp only [bind, Except.bind]
    cases st with
    | got a le dlen cons eof intr =>
      cases a with
      | zero =>
        obtain ⟨hq, hq', he⟩ := eof rfl (hd 0)
        exact ⟨r1, b, .ok len, n1, m, q1, ev1, [], [], _, rfl, rc1, upd_eq w, hj1, bs1, hq1,
          by rw [List.append_nil]; exact hqb1, lg1, by simpa using cons.symm, by simp, by simp, rfl, hq', he⟩
      | succ a =>
        simp only
        rw [if_neg (by omega)]
        have hlen : (d.take (a + 1)).length = a + 1 := by rw [List.length_take]; omega
        obtain ⟨k2, b2, m2, e2, rc2, hm2, l2, on2, hq2, hr2⟩ := ring_all_in wf rc1 hj1 hqb1 hr (by omega)
          (d.take (a + 1))
        have bs2 := bs1.trans (Besides.second (i := i) (x := some (.ring b2 m2)) on2)
        have hi2 : ((w.upd k1 i (some (.ring r1.buf n1))).upd k2 j (some (.ring b2 m2))).held i =
            some (.ring r1.buf n1) := by rw [upd_ne _ hij]; exact upd_eq w
        have hqr2 : r1.buffer t k2 = .ok q1 := (on2.ring wf rc1 hij (upd_eq w)).trans hq1
        have e2' : b.writeAll t k1 (d.take (a + 1)) = _ := e2
        rw [e2']
        simp only
        by_cases hf : (d.take (a + 1)).length ≤ room
        · rw [if_pos hf]
          simp only
          rw [List.take_of_length_le hf] at hq2
          obtain ⟨r3, b3, x, n3, m3, q3, er, moved, lost, w3, e3, rc3, hi3, hj3, bs3, hq3, hb3, lg3, sp3, le3, res⟩ :=
            ih (fun i => dst (i + 1)) (fun i => hd (i + 1)) rc2 hi2 (upd_eq _) hqr2 hq2 hr2
              (by rw [l1]; omega) (by rw [l2]; omega) (len + (a + 1))
          refine ⟨r3, b3, x, n3, m3, q3, ev1 ++ er, d.take (a + 1) ++ moved, lost, w3, e3, rc3, hi3, hj3,
            bs2.trans bs3, hq3, by rw [hb3, List.append_assoc], by rw [lg3, lg1, List.append_assoc], ?_, ?_, ?_⟩
          · rw [taken_append, ← List.append_assoc, ← cons, List.append_assoc, sp3]
            simp only [List.append_assoc]
          · rw [List.length_append]; omega
          · cases x with
            | ok c =>
              refine ⟨?_, res.2.1, res.2.2.1, res.2.2.2.after _⟩
              rw [res.1, List.length_append]; omega
            | err e =>
              refine res.imp (fun h => ⟨h.1, h.2.after _⟩) (fun h => ⟨h.1, ?_, h.2.2⟩)
              rw [List.length_append]; omega
            | unwound => exact ⟨res.1, res.2.after _⟩
            | pending =>
              refine ⟨res.1, ?_⟩
              have := res.2
              rw [List.length_append, interrupts_append]; omega
        · rw [if_neg hf]
          refine ⟨r1, b2, .err (.ofKind .writeZero), n1, m2, q1, ev1, (d.take (a + 1)).take room,
            (d.take (a + 1)).drop room, _, rfl, rc2, hi2, upd_eq _, bs2, hqr2, hq2, lg1, ?_, ?_, ?_⟩
          · rw [List.take_append_drop, cons]
          · rw [List.length_take]; omega
          · refine .inr ⟨?_, by rw [List.length_take]; omega, rfl⟩
            intro hc
            have := congrArg List.length hc
            rw [List.length_drop, List.length_nil] at this
            omega
    | failed e stored dlen resp =>
      rename_i x
      simp only
      have ht : taken [x] = [] := by rw [taken_one, ReadEvent.bytes, resp]
      by_cases hk : e.kind = .interrupted
      · rw [if_pos hk]
        obtain ⟨r3, b3, y, n3, m3, q3, er, moved, lost, w3, e3, rc3, hi3, hj3, bs3, hq3, hb3, lg3, sp3, le3, res⟩ :=
          ih (fun i => dst (i + 1)) (fun i => hd (i + 1)) rc1 (upd_eq w) hj1 hq1 hqb1 hr
            (by rw [l1]; omega) (by omega) len
        have hc : interrupts [x] = 1 := by simp [interrupts, resp, hk]
        refine ⟨r3, b3, y, n3, m3, q3, [x] ++ er, moved, lost, w3, e3, rc3, hi3, hj3,
          bs1.trans bs3, hq3, hb3, by rw [lg3, lg1, List.append_assoc],
          by rw [taken_append, ht, List.nil_append]; exact sp3, le3, ?_⟩
        cases y with
        | ok c => exact ⟨res.1, res.2.1, res.2.2.1, res.2.2.2.after _⟩
        | err e => exact res.imp (fun h => ⟨h.1, h.2.after _⟩) id
        | unwound => exact ⟨res.1, res.2.after _⟩
        | pending =>
          refine ⟨res.1, ?_⟩
          have := res.2
          rw [interrupts_append, hc]; omega
      · rw [if_neg hk]
        exact ⟨r1, b, .err e, n1, m, _, _, [], [], _, rfl, rc1, upd_eq w, hj1, bs1, hq1, by rw [List.append_nil]; exact hqb1, lg1,
          by simp [ht], by simp, .inl ⟨rfl, hk, [], x, stored, rfl, resp⟩⟩
    | unwound stored resp =>
      rename_i x
      have ht : taken [x] = [] := by rw [taken_one, ReadEvent.bytes, resp]
      exact ⟨r1, b, .unwound, n1, m, _, _, [], [], _, rfl, rc1, upd_eq w, hj1, bs1, hq1, by rw [List.append_nil]; exact hqb1, lg1,
        by simp [ht], by simp, rfl, [], x, stored, rfl, resp⟩

theorem ring_to_writer (wf : Wf t k0) (W : Writer τ) (hW : W.Honest) (fuel rounds : Nat) {size : Nat} (pos : 0 < size)
    {i j : Nat} (hij : i ≠ j) :
    ∀ (steps : Nat) {w : World} (_ : Reach tab t k0 w) {n m : Nat} {a : Ring}
    {b : BufWriter (τ × List WriteEvent)} (_ : w.held i = some (.ring a n))
    (_ : w.held j = some (.ring b.buf m)) {qa qw : List Byte} (_ : readSliceBytes t w.k a t.usizeMax = .ok qa)
    (_ : b.buffered t w.k = .ok qw) (_ : m + steps * (rounds * b.buf.len) < posBound t b.buf.len) (len : Nat),
    ∃ a' b' x n' m' qa' qw' ew moved lost w',
      Ring.copyToWriter W.spy t fuel rounds size steps w.k a b len = .ok (w'.k, a', b', x) ∧
      Reach tab t k0 w' ∧ w'.held i = some (.ring a' n') ∧ w'.held j = some (.ring b'.buf m') ∧ Besides i j w w' ∧
      readSliceBytes t w'.k a' t.usizeMax = .ok qa' ∧ b'.buffered t w'.k = .ok qw' ∧ b'.buf.len = b.buf.len ∧
      b'.inner.2 = b.inner.2 ++ ew ∧ qa = moved ++ lost ++ qa' ∧ (received ew ++ qw').Perm (qw ++ moved) ∧
      (qa = [] ∨ (qw = [] ∧ qa.length ≤ size) ∨ qw.length + qa.length < b.buf.len →
        received ew ++ qw' = qw ++ moved) ∧
      match x with
      | .ok c => c = len + moved.length ∧ lost = [] ∧ qa' = []
      | .err e => lost ≠ [] ∧ WriteFailed ew e ∧ e.kind ≠ .interrupted
      | .unwound => lost ≠ [] ∧ WritePanicked ew
      | .pending => steps ≤ moved.length ∨ rounds ≤ moved.length + refused ew ∨
          fuel ≤ b.buf.len + refused ew := by
  intro steps
  induction steps with
  | zero =>
    intro w h n m a b hi hj qa qw hqa hqw _ len
    exact ⟨a, b, .pending, n, m, qa, qw, [], [], [], w, rfl, h, hi, hj, fun _ _ _ => ⟨rfl, fun _ _ _ _ _ => rfl⟩,
      hqa, hqw, rfl, by simp, by simp, by simp [received], by simp [received], .inl (by simp)⟩
  | succ steps ih =>
    intro w h n m a b hi hj qa qw hqa hqw hbw len
    simp only [Nat.add_mul, Nat.one_mul] at hbw
    obtain ⟨a1, n1, e1, rc1, hn1, hq1⟩ := ring_read_in wf h hi hqa size
    have bs1 : Besides i j w (w.upd w.k i (some (.ring a1 n1))) := .still
    have hj1 : (w.upd w.k i (some (.ring a1 n1))).held j = some (.ring b.buf m) := by
      rw [upd_ne w (Ne.symm hij)]; exact hj
    have hlen : (qa.take size).length = min size qa.length := List.length_take
    rw [Ring.copyToWriter, e1]
    simp only [bind, Except.bind]
    by_cases h0 : (qa.take size).length = 0
    · rw [if_pos h0]
      have hz : qa = [] := List.eq_nil_of_length_eq_zero (by omega)
      subst hz
      exact ⟨a1, b, .ok len, n1, m, [], qw, [], [], [], w.upd w.k i (some (.ring a1 n1)), rfl, rc1, upd_eq w, hj1, bs1, by rw [List.drop_nil] at hq1; exact hq1, hqw, rfl,
        by simp, by simp, by simp [received], by simp [received], by simp, rfl, rfl⟩
    · rw [if_neg h0, if_neg (by omega)]
      obtain ⟨k2, b2, acc, left, y, ev2, m2, q2, e2, rc2, hm2, l2, on2, hq2, lg2, hcap, hdat, pm2, or2, res2⟩ :=
        writeAll_in wf rc1 W hW fuel rounds hj1 hqw (by omega) (qa.take size)
      have e2' : b.writeAll W.spy t fuel rounds w.k (qa.take size) = _ := e2
      rw [e2']
      have bs2 := bs1.trans (Besides.second (i := i) (x := some (.ring b2.buf m2)) on2)
      have hi2 : ((w.upd w.k i (some (.ring a1 n1))).upd k2 j (some (.ring b2.buf m2))).held i =
          some (.ring a1 n1) := by rw [upd_ne _ hij]; exact upd_eq w
      have hqa2 : readSliceBytes t k2 a1 t.usizeMax = .ok (qa.drop size) := (on2.ring wf rc1 hij (upd_eq w)).trans hq1
      have hsplit : qa = acc ++ left ++ qa.drop size := by rw [← hdat, List.take_append_drop]
      have hord : qa = [] ∨ (qw = [] ∧ qa.length ≤ size) ∨ qw.length + qa.length < b.buf.len →
          received ev2 ++ q2 = qw ++ acc := by
        rintro (hc | hc | hc)
        · subst hc; simp at h0
        · exact or2 (.inl hc.1)
        · exact or2 (.inr (by omega))
      cases y with
      | err e =>
        exact ⟨a1, b2, .err e, n1, m2, _, q2, ev2, acc, left, _, rfl, rc2, hi2, upd_eq _, bs2, hqa2, hq2, l2, lg2,
          hsplit, pm2, hord, res2⟩
      | unwound =>
        exact ⟨a1, b2, .unwound, n1, m2, _, q2, ev2, acc, left, _, rfl, rc2, hi2, upd_eq _, bs2, hqa2, hq2, l2, lg2,
          hsplit, pm2, hord, res2⟩
      | pending =>
        exact ⟨a1, b2, .pending, n1, m2, _, q2, ev2, acc, left, _, rfl, rc2, hi2, upd_eq _, bs2, hqa2, hq2, l2, lg2,
          hsplit, pm2, hord, .inr (res2.imp id (fun hz => by omega))⟩
      | ok u =>
        have hleft : left = [] := res2
        subst hleft
        rw [List.append_nil] at hdat hsplit
        have hacc : acc.length = min size qa.length := by rw [← hdat, hlen]
        simp only
        obtain ⟨a3, b3, z, n3, m3, qa3, qw3, ew3, mv3, lost3, w3, e3, rc3, hi3, hj3, bs3, hqa3, hqw3, l3, lg3, sp3,
          pm3, or3, res3⟩ := ih rc2 hi2 (upd_eq _) hqa2 hq2 (by rw [l2]; omega) (len + (qa.take size).length)
        refine ⟨a3, b3, z, n3, m3, qa3, qw3, ev2 ++ ew3, acc ++ mv3, lost3, w3, e3, rc3, hi3, hj3, bs2.trans bs3, hqa3,
          hqw3, l3.trans l2, by rw [lg3, lg2, List.append_assoc], ?_, ?_, ?_, ?_⟩
        · rw [List.append_assoc, List.append_assoc, ← List.append_assoc mv3, ← sp3]; exact hsplit
        · rw [received_append, List.append_assoc]
          refine (List.Perm.append_left _ pm3).trans ?_
          rw [← List.append_assoc, ← List.append_assoc]
          exact List.Perm.append_right _ pm2
        · intro hc
          have hl := pm2.length_eq
          simp only [List.length_append] at hl
          have h3 := or3 (by
            rcases hc with hc | hc | hc
            · subst hc; exact .inl List.drop_nil
            · exact .inl (List.drop_eq_nil_of_le hc.2)
            · exact .inr (.inr (by rw [l2, List.length_drop]; omega)))
          rw [received_append, List.append_assoc, h3, ← List.append_assoc, hord hc, List.append_assoc]
        · cases z with
          | ok c =>
            refine ⟨?_, res3.2⟩
            rw [res3.1, List.length_append]; omega
          | err e => exact ⟨res3.1, res3.2.1.after _, res3.2.2⟩
          | unwound => exact ⟨res3.1, res3.2.after _⟩
          | pending =>
            simp only [List.length_append, refused_append]
            simp only [l2] at res3
            omega

end
end Vmap
