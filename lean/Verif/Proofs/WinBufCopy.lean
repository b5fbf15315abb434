import Verif.Proofs.BufCopy
import Verif.Proofs.WinCopy
import Verif.Spec.WinBuffer
/- Helper lemmas for C183. -/
namespace Vmap
open Kernel Spec

section
variable {σ : Type} {tab : SysTable} {t : Target} {s0 : Vmap.Win}

/-- The trace of a ring while functions of another are called. -/
theorem Spec.WinQueue.across {w0 w w' : WinWorld} {l j cap : Nat} (hl : j ≠ l) {s : Spec.Win}
    (c : WinOnlyCalls tab t (· = j) w w') (tr : WinQueue tab t l cap w0 w s) : WinQueue tab t l cap w0 w' s := by
  induction c with
  | refl => exact tr
  | ring _ on call ih =>
    rw [on] at call
    clear on
    obtain ⟨r1, v, k, obj, k', r', -, -, -, -, -, -, st⟩ := call
    exact .other (op := .ringUse j _ _ _) ih trivial st (by intro a b c h; injection h with h; exact hl h)
      (fun h => by cases h)
  | inf _ on call ih =>
    rw [on] at call
    clear on
    obtain ⟨r1, v, k, obj, k', r', -, -, -, -, -, -, st⟩ := call
    exact .other (op := .infUse j _ _ _) ih trivial st (by intro a b c h; cases h) (fun h => by cases h)

/-- The trace of a buffered reader while functions of another ring are called. -/
theorem Spec.WinReads.keep (wf : WinWf t s0) (laid : WinLaid t s0) {R : Reader σ} {i j cap c : Nat} {w0 w w' : WinWorld}
    {b0 b : BufReader σ} {out : List Byte} {s : Spec.Win} (hij : j ≠ i) (calls : WinOnlyCalls tab t (· = j) w w')
    (tr : WinReads R tab t i w0 b0 w b out c) (reach : WinReach tab t s0 w) (h : WinHolds t w i cap s)
    (held : w.held i = some (.ring b.buf)) :
    WinReads R tab t i w0 b0 w' b out c ∧ WinReach tab t s0 w' ∧ WinHolds t w' i cap s ∧
      w'.held i = some (.ring b.buf) := by
  induction calls with
  | refl => exact ⟨tr, reach, h, held⟩
  | ring _ on call ih =>
    rw [on] at call
    clear on
    obtain ⟨r1, v, k, obj, k', r', -, -, -, -, -, -, st⟩ := call
    obtain ⟨a1, a2, a3, a4⟩ := ih
    have nu : ∀ a b c, WinOp.ringUse j r'.rpos r'.wpos (k'.data (obj v.sec.id)) ≠ .ringUse i a b c := by
      intro a b c h; injection h with h; exact hij h
    have nd : WinOp.ringUse j r'.rpos r'.wpos (k'.data (obj v.sec.id)) ≠ .drop i := fun h => by cases h
    exact ⟨.other (op := .ringUse j _ _ _) a1 trivial st nu nd,
      a3.other (op := .ringUse j _ _ _) wf laid a2 a4 trivial st nu nd⟩
  | inf _ on call ih =>
    rw [on] at call
    clear on
    obtain ⟨r1, v, k, obj, k', r', -, -, -, -, -, -, st⟩ := call
    obtain ⟨a1, a2, a3, a4⟩ := ih
    have nu : ∀ a b c, WinOp.infUse j r'.rlen r'.wpos (k'.data (obj v.sec.id)) ≠ .ringUse i a b c := by
      intro a b c h; cases h
    have nd : WinOp.infUse j r'.rlen r'.wpos (k'.data (obj v.sec.id)) ≠ .drop i := fun h => by cases h
    exact ⟨.other (op := .infUse j _ _ _) a1 trivial st nu nd,
      a3.other (op := .infUse j _ _ _) wf laid a2 a4 trivial st nu nd⟩

/-- A `read` of a buffered reader in a program. -/
theorem win_read_in (wf : WinWf t s0) (laid : WinLaid t s0) (R : Reader σ) (honest : R.Honest) {i cap c n : Nat}
    {w0 w : WinWorld} {r0 r : BufReader (σ × List ReadEvent)} {out q sp : List Byte}
    (tr : WinReads R.spy tab t i w0 r0 w r out c) (reach : WinReach tab t s0 w) (h : WinHolds t w i cap ⟨sp, q, n⟩)
    (held : w.held i = some (.ring r.buf)) {k : Kernel} {obj : Nat → Obj} (kw : Wf t k) (sh : WinShows w.s k obj)
    (below : n + cap < posBound t cap) (dst : List Byte) :
    ∃ k' r' d x n' q' sp' ev w' out', r.read R.spy t k dst = .ok (k', r', d, x) ∧
      WinReads R.spy tab t i w0 r0 w' r' out' (c + 1) ∧ WinReach tab t s0 w' ∧ WinHolds t w' i cap ⟨sp', q', n'⟩ ∧
      w'.held i = some (.ring r'.buf) ∧ Wf t k' ∧ WinShows w'.s k' obj ∧ n' ≤ n + cap ∧
      r'.inner.2 = r.inner.2 ++ ev ∧ ReadStep q dst ev q' d x ∧
      (∀ {l cap0 : Nat} {w00 : WinWorld} {s : Spec.Win}, i ≠ l → WinQueue tab t l cap0 w00 w s →
        WinQueue tab t l cap0 w00 w' s) ∧
      (∀ {l cap0 : Nat} {s : Spec.Win} {b : Ring}, i ≠ l → WinHolds t w l cap0 s → w.held l = some (.ring b) →
        w'.held l = some (.ring b)) := by
  obtain ⟨vw, hl⟩ := h.view wf laid reach held kw sh
  simp only at vw
  obtain ⟨k', r', d, x, n', q', sp', ev, e, v', hn, -, lg, st⟩ := read_step R honest vw (by rw [hl]; exact below) dst
  have ex : r.exec R.spy t k (.read dst) = .ok ((k', r'), .read d x, handed q (.read dst) (.read d x)) := by
    simp only [BufReader.exec, BufReader.buffer, vw.readSlice, e, bind, Except.bind, pure, Except.pure]
  obtain ⟨w2, ⟨v, hv, hb⟩, step, f1, f2, f3, f4, f5⟩ := h.used wf laid reach held kw sh (c := 1)
    (by simp only; omega) (rd_exec_uses ex) v'
  refine ⟨k', r', d, x, n', q', sp', ev, w2, _, e,
    tr.call ⟨v, k, obj, k', held, hv, hb, kw, sh, ex, step v hv hb⟩, f1, f3, f2, f4, f5, by rw [hl] at hn; exact hn, lg,
    st, ?_, ?_⟩
  · intro l cap0 w00 s hl q0
    exact .other (op := .ringUse i _ _ _) q0 trivial (step v hv hb) (by intro a b c h; injection h with h; exact hl h)
      (fun h => by cases h)
  · intro l cap0 s b hl g hh
    exact (g.other (op := .ringUse i _ _ _) wf laid reach hh trivial (step v hv hb)
      (by intro a b c h; injection h with h; exact hl h) (fun h => by cases h)).2.2

theorem win_reader_to_ring (wf : WinWf t s0) (laid : WinLaid t s0) (R : Reader σ) (hR : R.Honest) {i j : Nat}
    (hij : i ≠ j) {wa wb : WinWorld} {r0 : BufReader (σ × List ReadEvent)} {capr capb : Nat}
    (rb : WinReach tab t s0 wb) (startb : WinHolds t wb j capb ⟨List.replicate capb 0, [], 0⟩) {obj : Nat → Obj} :
    ∀ (steps : Nat) (dst : Nat → List Byte) (_ : ∀ i, dst i ≠ []) {w : WinWorld} {k : Kernel} {c n : Nat}
    {r : BufReader (σ × List ReadEvent)} {b : Ring} {out qr sp : List Byte} {s : Spec.Win}
    (_ : WinReads R.spy tab t i wa r0 w r out c) (_ : WinReach tab t s0 w) (_ : WinHolds t w i capr ⟨sp, qr, n⟩)
    (_ : w.held i = some (.ring r.buf)) (_ : WinQueue tab t j capb wb w s) (_ : w.held j = some (.ring b))
    (_ : Wf t k) (_ : WinShows w.s k obj) (_ : n + steps * capr < posBound t capr)
    (_ : s.total + s.spare.length < posBound t capb) (len : Nat),
    ∃ k' r' b' x w' out' c' n' qr' sp' s' er moved lost,
      BufReader.copyToRing R.spy t steps dst k r b len = .ok (k', r', b', x) ∧
      WinReads R.spy tab t i wa r0 w' r' out' c' ∧ c' ≤ c + steps ∧ WinReach tab t s0 w' ∧
      WinHolds t w' i capr ⟨sp', qr', n'⟩ ∧ w'.held i = some (.ring r'.buf) ∧
      WinQueue tab t j capb wb w' s' ∧ w'.held j = some (.ring b') ∧ Wf t k' ∧ WinShows w'.s k' obj ∧
      (∀ l cap0 w00 s, i ≠ l → j ≠ l → WinQueue tab t l cap0 w00 w s → WinQueue tab t l cap0 w00 w' s) ∧
      s'.q = s.q ++ moved ∧ r'.inner.2 = r.inner.2 ++ er ∧ qr ++ taken er = moved ++ lost ++ qr' ∧
      moved.length ≤ s.spare.length ∧
      match x with
      | .ok c => c = len + moved.length ∧ lost = [] ∧ qr' = [] ∧ SaidEof er
      | .err e => (lost = [] ∧ SaidErr er e) ∨
          (lost ≠ [] ∧ moved.length = s.spare.length ∧ e = .ofKind .writeZero)
      | .unwound => lost = [] ∧ SaidPanic er
      | .pending => lost = [] ∧ steps ≤ moved.length + interrupts er := by
  intro steps
  induction steps with
  | zero =>
    intro dst hd w k c n r b out qr sp s tr reach h held tb hb kw sh _ _ len
    exact ⟨k, r, b, .pending, w, out, c, n, qr, sp, s, [], [], [], rfl, tr, by omega, reach, h, held, tb, hb, kw, sh,
      fun _ _ _ _ _ _ h => h, by simp, by simp, by simp [taken], by simp, rfl, by simp⟩
  | succ steps ih =>
    intro dst hd w k c n r b out qr sp s tr reach h held tb hb kw sh hbr hbw len
    simp only [Nat.add_mul, Nat.one_mul] at hbr
    obtain ⟨k1, r1, d, x, n1, q1, sp1, ev1, w1, out1, e1, tr1, rc1, h1, held1, kw1, sh1, hn1, lg1, st, fr1, fo1⟩ :=
      win_read_in wf laid R hR tr reach h held kw sh (by omega) (dst 0)
    have tb1 := fr1 hij tb
    have hb1 := fo1 hij (WinQueue.holds wf laid rb startb tb).2 hb
    rw [BufReader.copyToRing, e1]
    simp only [bind, Except.bind]
    cases st with
    | got a le dlen cons eof intr =>
      cases a with
      | zero =>
        obtain ⟨hq, hq', he⟩ := eof rfl (hd 0)
        exact ⟨k1, r1, b, .ok len, w1, out1, c + 1, n1, q1, sp1, s, ev1, [], [], rfl, tr1, by omega, rc1, h1, held1, tb1,
          hb1, kw1, sh1, fun _ _ _ _ a _ h => fr1 a h, by simp, lg1, by simpa using cons.symm, by simp, by simp, rfl, hq', he⟩
      | succ a =>
        simp only
        rw [if_neg (by omega)]
        have hlen : (d.take (a + 1)).length = a + 1 := by rw [List.length_take]; omega
        obtain ⟨b2, k2, w2, e2, oc2, tb2, hb2, kw2, sh2⟩ := win_ring_sink wf laid rb startb tb1 hb1 kw1 sh1
          (d.take (a + 1)) (by omega)
        obtain ⟨tr2, rc2, h2, held2⟩ := WinReads.keep wf laid (Ne.symm hij) oc2 tr1 rc1 h1 held1
        have fr2 : ∀ l cap0 w00 s, i ≠ l → j ≠ l → WinQueue tab t l cap0 w00 w s → WinQueue tab t l cap0 w00 w2 s :=
          fun _ _ _ _ a c h => (fr1 a h).across c oc2
        have hsq : (s.step (.write (d.take (a + 1)))).1.q = s.q ++ (d.take (a + 1)).take s.spare.length := by
          simp only [Win.step]
          by_cases hm : (d.take (a + 1)).length ≤ s.spare.length
          · rw [Nat.min_eq_left hm, List.take_length, List.take_of_length_le hm]
          · rw [Nat.min_eq_right (by omega)]
        rw [e2]
        simp only
        by_cases hf : (d.take (a + 1)).length ≤ s.spare.length
        · rw [if_pos hf]
          simp only
          have hm : min (d.take (a + 1)).length s.spare.length = (d.take (a + 1)).length := Nat.min_eq_left hf
          have hsp : (s.step (.write (d.take (a + 1)))).1.spare.length = s.spare.length - (a + 1) := by
            simp only [Win.step, List.length_drop, hlen]; omega
          have htt : (s.step (.write (d.take (a + 1)))).1.total = s.total + (a + 1) := by
            simp only [Win.step, hlen]; omega
          rw [List.take_of_length_le hf] at hsq
          obtain ⟨k3, r3, b3, x, w3, out3, c3, n3, q3, sp3, s3, er, moved, lost, e3, tr3, hc3, rc3, h3, held3, tb3, hb3,
              kw3, sh3, fr3, hq3, lg3, cons3, le3, res⟩ :=
            ih (fun i => dst (i + 1)) (fun i => hd (i + 1)) tr2 rc2 h2 held2 tb2 hb2 kw2 sh2 (by omega)
              (by rw [hsp, htt]; omega) (len + (a + 1))
          rw [hsp] at le3 res
          refine ⟨k3, r3, b3, x, w3, out3, c3, n3, q3, sp3, s3, ev1 ++ er, d.take (a + 1) ++ moved, lost, e3, tr3, by omega,
            rc3, h3, held3, tb3, hb3, kw3, sh3, fun l c0 w0 s a b h => fr3 l c0 w0 s a b (fr2 l c0 w0 s a b h),
            by rw [hq3, hsq, List.append_assoc], by rw [lg3, lg1, List.append_assoc], ?_, ?_, ?_⟩
          · rw [taken_append, ← List.append_assoc, ← cons, List.append_assoc, cons3]
            simp only [List.append_assoc]
          · rw [List.length_append]; omega
          · cases x with
            | ok c =>
              refine ⟨?_, res.2.1, res.2.2.1, res.2.2.2.after _⟩
              rw [res.1, List.length_append]; omega
            | err e =>
              refine res.imp (fun h => ⟨h.1, h.2.after _⟩) (fun h => ⟨h.1, ?_, h.2.2⟩)
              rw [List.length_append]; omega
            | unwound => exact ⟨res.1, res.2.after _⟩
            | pending =>
              refine ⟨res.1, ?_⟩
              have := res.2
              rw [List.length_append, interrupts_append]; omega
        · rw [if_neg hf]
          refine ⟨k2, r1, b2, .err (.ofKind .writeZero), w2, out1, c + 1, n1, q1, sp1, _, ev1,
            (d.take (a + 1)).take s.spare.length, (d.take (a + 1)).drop s.spare.length, rfl, tr2, by omega, rc2, h2, held2,
            tb2, hb2, kw2, sh2, fr2, hsq, lg1, ?_, ?_, ?_⟩
          · rw [List.take_append_drop, cons]
          · rw [List.length_take]; omega
          · refine .inr ⟨?_, by rw [List.length_take]; omega, rfl⟩
            intro hc
            have := congrArg List.length hc
            rw [List.length_drop, List.length_nil] at this
            omega
    | failed e stored dlen resp =>
      rename_i x
      simp only
      have ht : taken [x] = [] := by rw [taken_one, ReadEvent.bytes, resp]
      by_cases hk : e.kind = .interrupted
      · rw [if_pos hk]
        obtain ⟨k3, r3, b3, y, w3, out3, c3, n3, q3, sp3, s3, er, moved, lost, e3, tr3, hc3, rc3, h3, held3, tb3, hb3,
            kw3, sh3, fr3, hq3, lg3, cons3, le3, res⟩ :=
          ih (fun i => dst (i + 1)) (fun i => hd (i + 1)) tr1 rc1 h1 held1 tb1 hb1 kw1 sh1 (by omega) hbw len
        have hc : interrupts [x] = 1 := by simp [interrupts, resp, hk]
        refine ⟨k3, r3, b3, y, w3, out3, c3, n3, q3, sp3, s3, [x] ++ er, moved, lost, e3, tr3, by omega,
          rc3, h3, held3, tb3, hb3, kw3, sh3, fun l c0 w0 s a b h => fr3 l c0 w0 s a b (fr1 a h), hq3,
          by rw [lg3, lg1, List.append_assoc], by rw [taken_append, ht, List.nil_append]; exact cons3, le3, ?_⟩
        cases y with
        | ok c => exact ⟨res.1, res.2.1, res.2.2.1, res.2.2.2.after _⟩
        | err e => exact res.imp (fun h => ⟨h.1, h.2.after _⟩) id
        | unwound => exact ⟨res.1, res.2.after _⟩
        | pending =>
          refine ⟨res.1, ?_⟩
          have := res.2
          rw [interrupts_append, hc]; omega
      · rw [if_neg hk]
        exact ⟨k1, r1, b, .err e, w1, out1, c + 1, n1, _, sp1, s, _, [], [], rfl, tr1, by omega, rc1, h1, held1, tb1,
          hb1, kw1, sh1, fun _ _ _ _ a _ h => fr1 a h, by simp, lg1, by simp [ht], by simp,
          .inl ⟨rfl, hk, [], x, stored, rfl, resp⟩⟩
    | unwound stored resp =>
      rename_i x
      have ht : taken [x] = [] := by rw [taken_one, ReadEvent.bytes, resp]
      exact ⟨k1, r1, b, .unwound, w1, out1, c + 1, n1, _, sp1, s, _, [], [], rfl, tr1, by omega, rc1, h1, held1, tb1,
        hb1, kw1, sh1, fun _ _ _ _ a _ h => fr1 a h, by simp, lg1, by simp [ht], by simp, rfl, [], x, stored, rfl, resp⟩

end
end Vmap
