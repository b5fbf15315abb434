import Verif.Spec.Copy
import Verif.Proofs.BufferStd
import Verif.Proofs.BufWorld
/- Helper lemmas: copying from a `BufReader` to a `BufWriter`. -/
namespace Vmap
open Kernel Spec
variable {σ τ : Type}

theorem writeAll_uses {W : Writer τ} {t : Target} {fuel : Nat} : ∀ {rounds : Nat} {k k' : Kernel}
    {b b' : BufWriter τ} {data left : List Byte} {x : Out Unit},
    b.writeAll W t fuel rounds k data = .ok (k', b', left, x) →
    Uses t k b.buf rounds k' b'.buf := by
  intro rounds
  induction rounds with
  | zero =>
    intro k k' b b' data left x h
    injection h with h; injection h with h1 h2; injection h2 with h2 h3
    subst h1 h2
    exact Uses.refl _ _ _
  | succ rounds ih =>
    intro k k' b b' data left x h
    simp only [BufWriter.writeAll] at h
    split at h
    · injection h with h; injection h with h1 h2; injection h2 with h2 h3
      subst h1 h2
      exact (Uses.refl _ _ _).mono (by omega)
    · obtain ⟨⟨k1, b1, y⟩, e, h⟩ := bind_ok h
      have u := wr_write_uses e
      dsimp only at h
      have stop : ∀ {l : List Byte} {z : Out Unit},
          (pure (k1, b1, l, z) : Exec (Kernel × BufWriter τ × List Byte × Out Unit)) =
            .ok (k', b', left, x) → Uses t k b.buf (rounds + 1) k' b'.buf := by
        intro l z h
        injection h with h; injection h with h1 h2; injection h2 with h2 h3
        subst h1 h2
        exact u.mono (by omega)
      split at h
      · exact stop h
      · split at h
        · cases h
        · exact (u.trans (ih h)).mono (by omega)
      · split at h
        · exact (u.trans (ih h)).mono (by omega)
        · exact stop h
      · exact stop h
      · exact stop h

theorem loadN_congr {k k' : Kernel} : ∀ (n a : Nat), (∀ i, i < n → k'.load (a + i) = k.load (a + i)) →
    k'.loadN a n = k.loadN a n
  | 0, _, _ => rfl
  | n + 1, a, h => by
    have h0 := h 0 (by omega)
    rw [Nat.add_zero] at h0
    have := loadN_congr (k := k) (k' := k') n (a + 1) (fun i hi => by
      rw [show a + 1 + i = a + (i + 1) by omega]; exact h _ (by omega))
    simp only [loadN, h0, this]

/-- A ring whose memory reads the same has the same readable bytes. -/
theorem readSlice_congr {t : Target} {k k' : Kernel} {r : Ring} {n : Nat} (h : RingAt t k r n)
    (same : ∀ a, r.ptr ≤ a → a < r.ptr + 2 * r.len → k'.load a = k.load a) :
    readSliceBytes t k' r t.usizeMax = readSliceBytes t k r t.usizeMax := by
  obtain ⟨o, s, rep, -⟩ := h.inv
  have hm := Nat.mod_lt r.rpos rep.mirror.len_pos
  have hl := rep.len_eq
  simp only [readSliceBytes, asReadSlice, SeqRead.readOffset, SeqRead.readLen, SeqRead.asReadPtr,
    rep.readOffset_eq, rep.readLen_eq, bind, Except.bind, pure, Except.pure]
  refine loadN_congr _ _ (fun i hi => same _ (by omega) ?_)
  have := Nat.min_le_left s.q.length t.usizeMax
  omega

theorem OnlyHandle.ring {tab : SysTable} {t : Target} {k0 : Kernel} (wf : Wf t k0) {w : World}
    (h : Reach tab t k0 w) {k' : Kernel} {i j n : Nat} {r : Ring} (o : OnlyHandle w k' i)
    (hij : j ≠ i) (hj : w.held j = some (.ring r n)) :
    readSliceBytes t k' r t.usizeMax = readSliceBytes t w.k r t.usizeMax :=
  readSlice_congr ((h.inv wf).live j _ hj).1 (fun a h1 h2 => o.others j _ hij hj a h1 h2)

/-- A `read` in a program. -/
theorem read_in {tab : SysTable} {t : Target} {k0 : Kernel} (wf : Wf t k0) {w : World}
    (h : Reach tab t k0 w) (R : Reader σ) (honest : R.Honest) {i n : Nat}
    {r : BufReader (σ × List ReadEvent)} (hi : w.held i = some (.ring r.buf n)) {q : List Byte}
    (hq : r.buffer t w.k = .ok q) (below : n + r.buf.len < posBound t r.buf.len)
    (dst : List Byte) :
    ∃ k' r' d x n' q' ev, r.read R.spy t w.k dst = .ok (k', r', d, x) ∧
      Reach tab t k0 (w.upd k' i (some (.ring r'.buf n'))) ∧ n' ≤ n + r.buf.len ∧
      r'.buf.len = r.buf.len ∧ OnlyHandle w k' i ∧ r'.buffer t k' = .ok q' ∧
      r'.inner.2 = r.inner.2 ++ ev ∧ ReadStep q dst ev q' d x := by
  obtain ⟨q1, sp, v⟩ := RingAt.view ((h.inv wf).live i _ hi).1
  rw [BufReader.buffer, v.readSlice] at hq
  injection hq with hq
  subst hq
  obtain ⟨k', r', d, x, n1, q', sp', ev, e, v', -, l, lg, st⟩ := read_step R honest v below dst
  obtain ⟨n', h1, h2, h3, h4⟩ := (rd_read_uses e).world wf h hi (by omega)
  exact ⟨k', r', d, x, n', q', ev, e, h1, by omega, l, h4, v'.readSlice, lg, st⟩

/-- A `write_all` in a program. -/
theorem writeAll_in {tab : SysTable} {t : Target} {k0 : Kernel} (wf : Wf t k0) {w : World}
    (h : Reach tab t k0 w) (W : Writer τ) (honest : W.Honest) (fuel rounds : Nat) {j n : Nat}
    {b : BufWriter (τ × List WriteEvent)} (hj : w.held j = some (.ring b.buf n)) {q : List Byte}
    (hq : b.buffered t w.k = .ok q) (below : n + rounds * b.buf.len < posBound t b.buf.len)
    (data : List Byte) :
    ∃ k' b' acc left x ev n' q', b.writeAll W.spy t fuel rounds w.k data = .ok (k', b', left, x) ∧
      Reach tab t k0 (w.upd k' j (some (.ring b'.buf n'))) ∧ n' ≤ n + rounds * b.buf.len ∧
      b'.buf.len = b.buf.len ∧ OnlyHandle w k' j ∧ b'.buffered t k' = .ok q' ∧
      b'.inner.2 = b.inner.2 ++ ev ∧ q.length ≤ b.buf.len ∧ data = acc ++ left ∧
      (received ev ++ q').Perm (q ++ acc) ∧
      (q = [] ∨ q.length + data.length ≠ b.buf.len → received ev ++ q' = q ++ acc) ∧
      match x with
      | .ok () => left = []
      | .err e => left ≠ [] ∧ WriteFailed ev e ∧ e.kind ≠ .interrupted
      | .unwound => left ≠ [] ∧ WritePanicked ev
      | .pending => rounds ≤ acc.length + refused ev ∨ fuel ≤ q.length + refused ev := by
  obtain ⟨q1, sp, v⟩ := RingAt.view ((h.inv wf).live j _ hj).1
  rw [BufWriter.buffered, v.readSlice] at hq
  injection hq with hq
  subst hq
  have hl := v.len
  obtain ⟨k', b', acc, left, x, ev, n1, q', sp', e, v', -, l, lg, hd, pm, ord, res⟩ :=
    writeAll_view W honest fuel rounds data v below
  obtain ⟨n', h1, h2, h3, h4⟩ := (writeAll_uses e).world wf h hj below
  refine ⟨k', b', acc, left, x, ev, n', q', e, h1, h2, l, h4, v'.readSlice, lg, by omega, hd, pm,
    ?_, res⟩
  intro hc
  apply ord
  intro hlen
  rcases hc with hc | hc
  · exact hc
  · exact absurd (by omega) hc

/-- What a copy does: `moved` was accepted by the writer, `lost` was read but not accepted. -/
structure Copied (t : Target) (steps rounds fuel cap : Nat) (qr qw : List Byte)
    (er : List ReadEvent) (ew : List WriteEvent) (moved lost qr' qw' : List Byte) (x : Out Nat)
    (len : Nat) (ordered : Prop) : Prop where
  read : qr ++ taken er = moved ++ lost ++ qr'
  written : (received ew ++ qw').Perm (qw ++ moved)
  order : ordered ∨ qw.length + moved.length + lost.length < cap →
    received ew ++ qw' = qw ++ moved
  result : match x with
    | .ok n => n = len + moved.length ∧ lost = [] ∧ qr' = [] ∧ SaidEof er
    | .err e => (lost = [] ∧ SaidErr er e) ∨ (lost ≠ [] ∧ WriteFailed ew e)
    | .unwound => (lost = [] ∧ SaidPanic er) ∨ (lost ≠ [] ∧ WritePanicked ew)
    | .pending => steps ≤ moved.length + interrupts er ∨ rounds ≤ moved.length + refused ew ∨
        fuel ≤ cap + refused ew

theorem chain {i j : Nat} {w w1 w2 : World}
    (h1 : ∀ l, l ≠ i → l ≠ j → w1.held l = w.held l ∧ ∀ x, w.held l = some x → ∀ a,
      x.base ≤ a → a < x.base + x.bytes → w1.k.load a = w.k.load a) {k2 : Kernel}
    (h2 : ∀ l, l ≠ i → l ≠ j → w2.held l = w1.held l ∧ ∀ x, w1.held l = some x → ∀ a,
      x.base ≤ a → a < x.base + x.bytes → k2.load a = w1.k.load a) :
    ∀ l, l ≠ i → l ≠ j → w2.held l = w.held l ∧ ∀ x, w.held l = some x → ∀ a,
      x.base ≤ a → a < x.base + x.bytes → k2.load a = w.k.load a := by
  intro l a b
  refine ⟨(h2 l a b).1.trans (h1 l a b).1, fun x hx y g1 g2 => ?_⟩
  rw [(h2 l a b).2 x ((h1 l a b).1.trans hx) y g1 g2, (h1 l a b).2 x hx y g1 g2]

theorem copy_in {tab : SysTable} {t : Target} {k0 : Kernel} (wf : Wf t k0) (R : Reader σ)
    (hR : R.Honest) (W : Writer τ) (hW : W.Honest) (fuel rounds : Nat) {i j : Nat} (hij : i ≠ j) :
    ∀ (steps : Nat) (dst : Nat → List Byte) (_ : ∀ i, dst i ≠ []) {w : World}
    (_ : Reach tab t k0 w) {n m : Nat} {r : BufReader (σ × List ReadEvent)}
    {b : BufWriter (τ × List WriteEvent)} (_ : w.held i = some (.ring r.buf n))
    (_ : w.held j = some (.ring b.buf m)) {qr qw : List Byte} (_ : r.buffer t w.k = .ok qr)
    (_ : b.buffered t w.k = .ok qw) (_ : n + steps * r.buf.len < posBound t r.buf.len)
    (_ : m + steps * (rounds * b.buf.len) < posBound t b.buf.len) (len : Nat),
    ∃ k' r' b' x n' m' qr' qw' er ew moved lost w',
      ioCopy R.spy W.spy t fuel rounds steps dst w.k r b len = .ok (k', r', b', x) ∧
      Reach tab t k0 w' ∧ w'.k = k' ∧ w'.held i = some (.ring r'.buf n') ∧
      w'.held j = some (.ring b'.buf m') ∧ (∀ l, l ≠ i → l ≠ j → w'.held l = w.held l ∧
        ∀ x, w.held l = some x → ∀ a, x.base ≤ a → a < x.base + x.bytes →
          k'.load a = w.k.load a) ∧
      n' ≤ n + steps * r.buf.len ∧ m' ≤ m + steps * (rounds * b.buf.len) ∧
      r'.buf.len = r.buf.len ∧ b'.buf.len = b.buf.len ∧
      r'.buffer t k' = .ok qr' ∧ b'.buffered t k' = .ok qw' ∧
      r'.inner.2 = r.inner.2 ++ er ∧ b'.inner.2 = b.inner.2 ++ ew ∧
      Copied t steps rounds fuel b.buf.len qr qw er ew moved lost qr' qw' x len
        (NoPieceFits R.spy W.spy t fuel rounds steps dst w.k r b)
  | 0, dst, _, w, h, n, m, r, b, hi, hj, qr, qw, hqr, hqw, _, _, len => by
    refine ⟨w.k, r, b, .pending, n, m, qr, qw, [], [], [], [], w, rfl, h, rfl, hi, hj,
      fun _ _ _ => ⟨rfl, fun _ _ _ _ _ => rfl⟩, by omega, by omega, rfl, rfl, hqr, hqw, by simp, by simp, ?_⟩
    exact ⟨by simp [taken], by simp [received], by simp [received], .inl (by simp)⟩
  | steps + 1, dst, hd, w, h, n, m, r, b, hi, hj, qr, qw, hqr, hqw, hbr, hbw, len => by
    simp only [Nat.add_mul, Nat.one_mul] at hbr hbw ⊢
    obtain ⟨k1, r1, d, x, n1, q1, ev1, e1, rc1, hn1, l1, on1, hq1, lg1, st⟩ :=
      read_in wf h R hR hi hqr (by omega) (dst 0)
    have hi1 : (w.upd k1 i (some (.ring r1.buf n1))).held i = some (.ring r1.buf n1) := by
      simp only [World.upd, if_true]
    have hj1 : (w.upd k1 i (some (.ring r1.buf n1))).held j = some (.ring b.buf m) := by
      simp only [World.upd, if_neg (Ne.symm hij)]; exact hj
    have ho1 : ∀ l, l ≠ i → l ≠ j →
        (w.upd k1 i (some (.ring r1.buf n1))).held l = w.held l ∧
        ∀ x, w.held l = some x → ∀ a, x.base ≤ a → a < x.base + x.bytes →
          k1.load a = w.k.load a := by
      intro l h1 _
      exact ⟨by simp only [World.upd, if_neg h1], fun x hx => on1.others l x h1 hx⟩
    have hqw1 : b.buffered t k1 = .ok qw := (on1.ring wf h (Ne.symm hij) hj).trans hqw
    generalize hw1 : w.upd k1 i (some (.ring r1.buf n1)) = w1 at *
    have hk1 : w1.k = k1 := by rw [← hw1]; rfl
    simp only [ioCopy, e1, bind, Except.bind]
    cases st with
    | got a le dlen cons eof intr =>
      cases a with
      | zero =>
        obtain ⟨hq, hq', he⟩ := eof rfl (hd 0)
        refine ⟨k1, r1, b, .ok len, n1, m, q1, qw, ev1, [], [], [], w1, rfl, rc1, hk1, hi1, hj1,
          ho1, by omega, by omega, l1, rfl, hq1, hqw1, lg1, by simp, ?_⟩
        exact ⟨by simpa using cons.symm, by simp [received], by simp [received],
          by simp, rfl, hq', he⟩
      | succ a =>
        simp only
        rw [if_neg (by omega)]
        have hlen : (d.take (a + 1)).length = a + 1 := by rw [List.length_take]; omega
        subst hk1
        obtain ⟨k2, b2, acc, left, y, ev2, m2, q2, e2, rc2, hm2, l2, on2, hq2, lg2, hcap, hdat,
          pm2, or2, res2⟩ := writeAll_in wf rc1 W hW fuel rounds hj1 hqw1 (by omega)
            (d.take (a + 1))
        have hi2 : (w1.upd k2 j (some (.ring b2.buf m2))).held i = some (.ring r1.buf n1) := by
          simp only [World.upd, if_neg hij]; exact hi1
        have hj2 : (w1.upd k2 j (some (.ring b2.buf m2))).held j = some (.ring b2.buf m2) := by
          simp only [World.upd, if_true]
        have ho2 : ∀ l, l ≠ i → l ≠ j →
            (w1.upd k2 j (some (.ring b2.buf m2))).held l = w.held l ∧
            ∀ x, w.held l = some x → ∀ a, x.base ≤ a → a < x.base + x.bytes →
              k2.load a = w.k.load a := by
          intro l h1 h2
          refine ⟨by simp only [World.upd, if_neg h2]; exact (ho1 l h1 h2).1, fun x hx a g1 g2 => ?_⟩
          rw [on2.others l x h2 ((ho1 l h1 h2).1.trans hx) a g1 g2]
          exact (ho1 l h1 h2).2 x hx a g1 g2
        have hqr2 : r1.buffer t k2 = .ok q1 := (on2.ring wf rc1 hij hi1).trans hq1
        generalize hw2 : w1.upd k2 j (some (.ring b2.buf m2)) = w2 at *
        have hk2 : w2.k = k2 := by rw [← hw2]; rfl
        have hacc : acc.length + left.length = a + 1 := by
          rw [← hlen, hdat, List.length_append]
        rw [e2]
        have fits : NoPieceFits R.spy W.spy t fuel rounds (steps + 1) dst w.k r b →
            (qw = [] ∨ qw.length + (a + 1) ≠ b.buf.len) ∧ (y = .ok () →
              NoPieceFits R.spy W.spy t fuel rounds steps (fun i => dst (i + 1)) k2 r1 b2) := by
          intro hc
          have := hc _ _ _ _ e1 (by omega)
          refine ⟨this.1 qw hqw1, ?_⟩
          intro hy
          subst hy
          exact this.2 _ _ _ e2
        have step : NoPieceFits R.spy W.spy t fuel rounds (steps + 1) dst w.k r b ∨
            qw.length + (a + 1) < b.buf.len → received ev2 ++ q2 = qw ++ acc := by
          intro hc
          apply or2
          rw [hlen]
          rcases hc with hc | hc
          · exact (fits hc).1
          · exact .inr (by omega)
        have stop : ∀ (z : Out Nat), (match z with
            | .ok n => False
            | .err e => left ≠ [] ∧ WriteFailed ev2 e
            | .unwound => left ≠ [] ∧ WritePanicked ev2
            | .pending => rounds ≤ acc.length + refused ev2 ∨ fuel ≤ qw.length + refused ev2) →
            Copied t (steps + 1) rounds fuel b.buf.len qr qw ev1 ev2 acc left q1 q2 z len
              (NoPieceFits R.spy W.spy t fuel rounds (steps + 1) dst w.k r b) := by
          intro z hz
          refine ⟨by rw [← hdat, cons], pm2, ?_, ?_⟩
          · intro hc
            refine step (hc.imp id (fun hc => by omega))
          · cases z with
            | ok n => exact hz.elim
            | err e => exact .inr hz
            | unwound => exact .inr hz
            | pending => exact .inr (hz.imp id (fun hz => by omega))
        cases y with
        | err e =>
          exact ⟨k2, r1, b2, .err e, n1, m2, q1, q2, ev1, ev2, acc, left, w2, rfl, rc2, hk2, hi2,
            hj2, ho2, by omega, by omega, l1, l2, hqr2, hq2, lg1, lg2,
            stop _ ⟨res2.1, res2.2.1⟩⟩
        | unwound =>
          exact ⟨k2, r1, b2, .unwound, n1, m2, q1, q2, ev1, ev2, acc, left, w2, rfl, rc2, hk2, hi2,
            hj2, ho2, by omega, by omega, l1, l2, hqr2, hq2, lg1, lg2, stop _ res2⟩
        | pending =>
          exact ⟨k2, r1, b2, .pending, n1, m2, q1, q2, ev1, ev2, acc, left, w2, rfl, rc2, hk2, hi2,
            hj2, ho2, by omega, by omega, l1, l2, hqr2, hq2, lg1, lg2, stop _ res2⟩
        | ok u =>
          have hleft : left = [] := res2
          subst hleft
          rw [List.append_nil] at hdat
          rw [List.length_nil, Nat.add_zero] at hacc
          simp only
          subst hk2
          obtain ⟨k3, r3, b3, z, n3, m3, qr3, qw3, er3, ew3, mv3, lost3, w3, e3, rc3, hk3, hi3, hj3,
            ho3, hn3, hm3, l3, l3', hqr3, hqw3, lg3, lg3', c3⟩ :=
            copy_in wf R hR W hW fuel rounds hij steps (fun i => dst (i + 1)) (fun i => hd (i + 1))
              rc2 hi2 hj2 hqr2 hq2 (by rw [l1]; omega) (by rw [l2]; omega) (len + (a + 1))
          rw [l1] at hn3
          rw [l2] at hm3
          refine ⟨k3, r3, b3, z, n3, m3, qr3, qw3, ev1 ++ er3, ev2 ++ ew3, acc ++ mv3, lost3, w3, e3,
            rc3, hk3, hi3, hj3, chain ho2 ho3, by omega,
            by omega, l3.trans l1, l3'.trans l2, hqr3, hqw3, by rw [lg3, lg1, List.append_assoc],
            by rw [lg3', lg2, List.append_assoc], ?_⟩
          refine ⟨?_, ?_, ?_, ?_⟩
          · rw [taken_append, ← List.append_assoc, ← cons, hdat, List.append_assoc, c3.read]
            simp only [List.append_assoc]
          · rw [received_append, List.append_assoc]
            refine (List.Perm.append_left _ c3.written).trans ?_
            rw [← List.append_assoc, ← List.append_assoc]
            exact List.Perm.append_right _ pm2
          · intro hc
            have hq2len := pm2.length_eq
            simp only [List.length_append] at hc hq2len
            have hs := step (hc.imp id (fun hc => by omega))
            have h3 := c3.order (hc.imp (fun hc => (fits hc).2 rfl)
              (fun hc => by rw [l2]; omega))
            rw [received_append, List.append_assoc, h3, ← List.append_assoc, hs, List.append_assoc]
          · have hr := c3.result
            cases z with
            | ok n =>
              exact ⟨by rw [hr.1, List.length_append]; omega, hr.2.1, hr.2.2.1, hr.2.2.2.after _⟩
            | err e => exact hr.imp (fun h => ⟨h.1, h.2.after _⟩) (fun h => ⟨h.1, h.2.after _⟩)
            | unwound => exact hr.imp (fun h => ⟨h.1, h.2.after _⟩) (fun h => ⟨h.1, h.2.after _⟩)
            | pending =>
              simp only [List.length_append, interrupts_append, refused_append]
              simp only [l2] at hr
              omega
    | failed e stored dlen resp =>
      rename_i x
      simp only
      have ht : taken [x] = [] := by rw [taken_one, ReadEvent.bytes, resp]
      by_cases hk : e.kind = .interrupted
      · rw [if_pos hk]
        subst hk1
        obtain ⟨k3, r3, b3, z, n3, m3, qr3, qw3, er3, ew3, mv3, lost3, w3, e3, rc3, hk3, hi3, hj3,
          ho3, hn3, hm3, l3, l3', hqr3, hqw3, lg3, lg3', c3⟩ :=
          copy_in wf R hR W hW fuel rounds hij steps (fun i => dst (i + 1)) (fun i => hd (i + 1))
            rc1 hi1 hj1 hq1 hqw1 (by rw [l1]; omega) (by omega) len
        rw [l1] at hn3
        refine ⟨k3, r3, b3, z, n3, m3, qr3, qw3, [x] ++ er3, ew3, mv3, lost3, w3, e3,
          rc3, hk3, hi3, hj3, chain ho1 ho3, by omega,
          by omega, l3.trans l1, l3', hqr3, hqw3, by rw [lg3, lg1, List.append_assoc],
          lg3', ?_⟩
        have hc : interrupts [x] = 1 := by simp [interrupts, resp, hk]
        refine ⟨by rw [taken_append, ht, List.nil_append]; exact c3.read, c3.written, ?_, ?_⟩
        · intro hc
          exact c3.order (hc.imp (fun hc => hc _ _ _ _ e1) id)
        · have hr := c3.result
          cases z with
          | ok n => exact ⟨hr.1, hr.2.1, hr.2.2.1, hr.2.2.2.after _⟩
          | err e => exact hr.imp (fun h => ⟨h.1, h.2.after _⟩) id
          | unwound => exact hr.imp (fun h => ⟨h.1, h.2.after _⟩) id
          | pending =>
            simp only [interrupts_append, hc]
            simp only at hr
            omega
      · rw [if_neg hk]
        refine ⟨k1, r1, b, .err e, n1, m, _, qw, _, [], [], [], w1, rfl, rc1, hk1, hi1, hj1,
          ho1, by omega, by omega, l1, rfl, hq1, hqw1, lg1, by simp, ?_⟩
        exact ⟨by simp [ht], by simp [received], by simp [received],
          .inl ⟨rfl, hk, [], x, stored, rfl, resp⟩⟩
    | unwound stored resp =>
      rename_i x
      have ht : taken [x] = [] := by rw [taken_one, ReadEvent.bytes, resp]
      refine ⟨k1, r1, b, .unwound, n1, m, _, qw, _, [], [], [], w1, rfl, rc1, hk1, hi1, hj1,
        ho1, by omega, by omega, l1, rfl, hq1, hqw1, lg1, by simp, ?_⟩
      exact ⟨by simp [ht], by simp [received], by simp [received],
        .inl ⟨rfl, [], x, stored, rfl, resp⟩⟩

end Vmap
