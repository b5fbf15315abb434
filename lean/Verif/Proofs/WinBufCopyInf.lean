import Verif.Proofs.WinBufCopy
import Verif.Proofs.BufCopyInf
/- Helper lemmas for C184. -/
namespace Vmap
open Kernel Spec

section
variable {σ : Type} {tab : SysTable} {t : Target} {s0 : Vmap.Win}

/-- A `read` of a buffered reader in a program. -/
theorem win_read_step (wf : WinWf t s0) (laid : WinLaid t s0) (R : Reader σ) (honest : R.Honest) {i cap c n : Nat}
    {w0 w : WinWorld} {r0 r : BufReader (σ × List ReadEvent)} {out q sp : List Byte}
    (tr : WinReads R.spy tab t i w0 r0 w r out c) (reach : WinReach tab t s0 w) (h : WinHolds t w i cap ⟨sp, q, n⟩)
    (held : w.held i = some (.ring r.buf)) {k : Kernel} {obj : Nat → Obj} (kw : Wf t k) (sh : WinShows w.s k obj)
    (below : n + cap < posBound t cap) (dst : List Byte) :
    ∃ k' r' d x n' q' sp' ev w' out', r.read R.spy t k dst = .ok (k', r', d, x) ∧
      WinReads R.spy tab t i w0 r0 w' r' out' (c + 1) ∧ WinReach tab t s0 w' ∧ WinHolds t w' i cap ⟨sp', q', n'⟩ ∧
      w'.held i = some (.ring r'.buf) ∧ Wf t k' ∧ WinShows w'.s k' obj ∧ n' ≤ n + cap ∧
      r'.inner.2 = r.inner.2 ++ ev ∧ ReadStep q dst ev q' d x ∧
      ∃ data, w.step tab t (.ringUse i r'.buf.rpos r'.buf.wpos data) = .ok w' := by
  obtain ⟨vw, hl⟩ := h.view wf laid reach held kw sh
  simp only at vw
  obtain ⟨k', r', d, x, n', q', sp', ev, e, v', hn, -, lg, st⟩ := read_step R honest vw (by rw [hl]; exact below) dst
  have ex : r.exec R.spy t k (.read dst) = .ok ((k', r'), .read d x, handed q (.read dst) (.read d x)) := by
    simp only [BufReader.exec, BufReader.buffer, vw.readSlice, e, bind, Except.bind, pure, Except.pure]
  obtain ⟨w2, ⟨v, hv, hb⟩, step, f1, f2, f3, f4, f5⟩ := h.used wf laid reach held kw sh (c := 1)
    (by simp only; omega) (rd_exec_uses ex) v'
  refine ⟨k', r', d, x, n', q', sp', ev, w2, _, e,
    tr.call ⟨v, k, obj, k', held, hv, hb, kw, sh, ex, step v hv hb⟩, f1, f3, f2, f4, f5, by rw [hl] at hn; exact hn, lg,
    st, _, step v hv hb⟩

theorem win_reader_to_inf (wf : WinWf t s0) (laid : WinLaid t s0) (R : Reader σ) (hR : R.Honest) {i j : Nat}
    (hij : i ≠ j) {wa wb : WinWorld} {r0 : BufReader (σ × List ReadEvent)} {capr capb : Nat}
    (rb : WinReach tab t s0 wb) (startb : WinHoldsInf t wb j capb ⟨List.replicate capb 0, [], 0⟩) {obj : Nat → Obj} :
    ∀ (steps : Nat) (dst : Nat → List Byte) (_ : ∀ i, dst i ≠ []) {w : WinWorld} {k : Kernel} {c n : Nat}
    {r : BufReader (σ × List ReadEvent)} {b : InfiniteRing} {out qr sp : List Byte} {s : Lossy}
    (_ : WinReads R.spy tab t i wa r0 w r out c) (_ : WinReach tab t s0 w) (_ : WinHolds t w i capr ⟨sp, qr, n⟩)
    (_ : w.held i = some (.ring r.buf)) (_ : WinLossy tab t j capb wb w s) (_ : w.held j = some (.inf b))
    (_ : Wf t k) (_ : WinShows w.s k obj) (_ : n + steps * capr < posBound t capr)
    (_ : s.total + steps * capb < posBound t capb) (len : Nat),
    ∃ k' r' b' x w' out' c' n' qr' sp' s' er moved,
      BufReader.copyToInfinite R.spy t steps dst k r b len = .ok (k', r', b', x) ∧
      WinReads R.spy tab t i wa r0 w' r' out' c' ∧ c' ≤ c + steps ∧ WinReach tab t s0 w' ∧
      WinHolds t w' i capr ⟨sp', qr', n'⟩ ∧ w'.held i = some (.ring r'.buf) ∧
      WinLossy tab t j capb wb w' s' ∧ w'.held j = some (.inf b') ∧ Wf t k' ∧ WinShows w'.s k' obj ∧
      (∀ l cap0 w00 s, i ≠ l → j ≠ l → WinQueue tab t l cap0 w00 w s → WinQueue tab t l cap0 w00 w' s) ∧
      s'.q = lastN capb (s.q ++ moved) ∧ r'.inner.2 = r.inner.2 ++ er ∧ qr ++ taken er = moved ++ qr' ∧
      match x with
      | .ok c => c = len + moved.length ∧ qr' = [] ∧ SaidEof er
      | .err e => SaidErr er e
      | .unwound => SaidPanic er
      | .pending => steps ≤ moved.length + interrupts er := by
  have full : ∀ {w : WinWorld} {s : Lossy}, WinLossy tab t j capb wb w s → s.q = lastN capb (s.q ++ []) := by
    intro w s tb
    obtain ⟨g1, g2⟩ := WinLossy.holds wf laid rb startb tb
    obtain ⟨k, obj, kw, sh⟩ := WinLaid.shows (g1.inv wf laid).laid
    obtain ⟨r, v, c, rfl, all, total, qlen, le, pos⟩ := id g2
    have rep := WinHoldsInf.rep wf laid g1 c all total qlen le pos sh
    have hc := rep.all_len
    have : s.all.length = s.old.length + s.q.length := by simp [Lossy.all]
    rw [List.append_nil, lastN_all (by omega)]
  intro steps
  induction steps with
  | zero =>
    intro dst hd w k c n r b out qr sp s tr reach h held tb hb kw sh _ _ len
    exact ⟨k, r, b, .pending, w, out, c, n, qr, sp, s, [], [], rfl, tr, by omega, reach, h, held, tb, hb, kw, sh,
      fun _ _ _ _ _ _ h => h, full tb, by simp, by simp [taken], by simp⟩
  | succ steps ih =>
    intro dst hd w k c n r b out qr sp s tr reach h held tb hb kw sh hbr hbw len
    simp only [Nat.add_mul, Nat.one_mul] at hbr hbw
    obtain ⟨k1, r1, d, x, n1, q1, sp1, ev1, w1, out1, e1, tr1, rc1, h1, held1, kw1, sh1, hn1, lg1, st, data, step1⟩ :=
      win_read_step wf laid R hR tr reach h held kw sh (by omega) (dst 0)
    have tb1 : WinLossy tab t j capb wb w1 s :=
      .other (op := .ringUse i _ _ _) tb trivial step1 (by intro a b c h; cases h) (fun h => by cases h)
    have hb1 : w1.held j = some (.inf b) :=
      (WinLossy.holds wf laid rb startb tb).2.other (op := .ringUse i _ _ _) wf laid reach hb trivial step1
        (by intro a b c h; cases h) (fun h => by cases h)
    have fr1 : ∀ l cap0 w00 s, i ≠ l → WinQueue tab t l cap0 w00 w s → WinQueue tab t l cap0 w00 w1 s :=
      fun l cap0 w00 s hl q0 => .other (op := .ringUse i _ _ _) q0 trivial step1
        (by intro a b c h; injection h with h; exact hl h) (fun h => by cases h)
    rw [BufReader.copyToInfinite, e1]
    simp only [bind, Except.bind]
    cases st with
    | got a le dlen cons eof intr =>
      cases a with
      | zero =>
        obtain ⟨hq, hq', he⟩ := eof rfl (hd 0)
        exact ⟨k1, r1, b, .ok len, w1, out1, c + 1, n1, q1, sp1, s, ev1, [], rfl, tr1, by omega, rc1, h1, held1, tb1,
          hb1, kw1, sh1, fun l c0 w0 s a _ h => fr1 l c0 w0 s a h, full tb, lg1, by simpa using cons.symm, by simp, hq', he⟩
      | succ a =>
        simp only
        rw [if_neg (by omega)]
        have hlen : (d.take (a + 1)).length = a + 1 := by rw [List.length_take]; omega
        obtain ⟨hcap, b2, k2, w2, e2, oc2, tb2, hb2, kw2, sh2⟩ := win_inf_sink wf laid rb startb tb1 hb1 kw1 sh1
          (d.take (a + 1)) (by omega)
        obtain ⟨tr2, rc2, h2, held2⟩ := WinReads.keep wf laid (Ne.symm hij) oc2 tr1 rc1 h1 held1
        have fr2 : ∀ l cap0 w00 s, i ≠ l → j ≠ l → WinQueue tab t l cap0 w00 w s → WinQueue tab t l cap0 w00 w2 s :=
          fun l c0 w0 s a c h => (fr1 l c0 w0 s a h).across c oc2
        have htt : (s.append (lastN capb (d.take (a + 1)))).total = s.total + min (d.take (a + 1)).length capb := by
          simp only [Lossy.append, lastN, List.length_drop]; omega
        rw [e2]
        simp only
        obtain ⟨k3, r3, b3, x, w3, out3, c3, n3, q3, sp3, s3, er, moved, e3, tr3, hc3, rc3, h3, held3, tb3, hb3,
            kw3, sh3, fr3, hq3, lg3, cons3, res⟩ :=
          ih (fun i => dst (i + 1)) (fun i => hd (i + 1)) tr2 rc2 h2 held2 tb2 hb2 kw2 sh2 (by omega)
            (by rw [htt]; omega) (len + (a + 1))
        refine ⟨k3, r3, b3, x, w3, out3, c3, n3, q3, sp3, s3, ev1 ++ er, d.take (a + 1) ++ moved, e3, tr3, by omega,
          rc3, h3, held3, tb3, hb3, kw3, sh3, fun l c0 w0 s a b h => fr3 l c0 w0 s a b (fr2 l c0 w0 s a b h),
          ?_, by rw [lg3, lg1, List.append_assoc], ?_, ?_⟩
        · rw [hq3, append_q hcap, lastN_lastN, lastN_front, List.append_assoc]
        · rw [taken_append, ← List.append_assoc, ← cons, List.append_assoc, cons3]
          simp only [List.append_assoc]
        · cases x with
          | ok c =>
            refine ⟨?_, res.2.1, res.2.2.after _⟩
            rw [res.1, List.length_append]; omega
          | err e => exact res.after _
          | unwound => exact res.after _
          | pending =>
            simp only at res ⊢
            rw [List.length_append, interrupts_append]; omega
    | failed e stored dlen resp =>
      rename_i x
      simp only
      have ht : taken [x] = [] := by rw [taken_one, ReadEvent.bytes, resp]
      by_cases hk : e.kind = .interrupted
      · rw [if_pos hk]
        obtain ⟨k3, r3, b3, y, w3, out3, c3, n3, q3, sp3, s3, er, moved, e3, tr3, hc3, rc3, h3, held3, tb3, hb3,
            kw3, sh3, fr3, hq3, lg3, cons3, res⟩ :=
          ih (fun i => dst (i + 1)) (fun i => hd (i + 1)) tr1 rc1 h1 held1 tb1 hb1 kw1 sh1 (by omega) (by omega) len
        have hc : interrupts [x] = 1 := by simp [interrupts, resp, hk]
        refine ⟨k3, r3, b3, y, w3, out3, c3, n3, q3, sp3, s3, [x] ++ er, moved, e3, tr3, by omega,
          rc3, h3, held3, tb3, hb3, kw3, sh3, fun l c0 w0 s a b h => fr3 l c0 w0 s a b (fr1 l c0 w0 s a h), hq3,
          by rw [lg3, lg1, List.append_assoc], by rw [taken_append, ht, List.nil_append]; exact cons3, ?_⟩
        cases y with
        | ok c => exact ⟨res.1, res.2.1, res.2.2.after _⟩
        | err e => exact res.after _
        | unwound => exact res.after _
        | pending =>
          simp only at res ⊢
          rw [interrupts_append, hc]; omega
      · rw [if_neg hk]
        exact ⟨k1, r1, b, .err e, w1, out1, c + 1, n1, _, sp1, s, _, [], rfl, tr1, by omega, rc1, h1, held1, tb1,
          hb1, kw1, sh1, fun l c0 w0 s a _ h => fr1 l c0 w0 s a h, full tb, lg1, by simp [ht],
          hk, [], x, stored, rfl, resp⟩
    | unwound stored resp =>
      rename_i x
      have ht : taken [x] = [] := by rw [taken_one, ReadEvent.bytes, resp]
      exact ⟨k1, r1, b, .unwound, w1, out1, c + 1, n1, _, sp1, s, _, [], rfl, tr1, by omega, rc1, h1, held1, tb1,
        hb1, kw1, sh1, fun l c0 w0 s a _ h => fr1 l c0 w0 s a h, full tb, lg1, by simp [ht], [], x, stored, rfl, resp⟩

end
end Vmap
