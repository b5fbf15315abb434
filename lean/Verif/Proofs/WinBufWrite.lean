import Verif.Proofs.WinBufCopy
/- Helper lemmas for C185. -/
namespace Vmap
open Kernel Spec

section
variable {τ : Type} {tab : SysTable} {t : Target} {s0 : Vmap.Win}

/-- Only the ring `j` was used between `w` and `w'`: every other ring holds what it held. -/
def WinBeside (tab : SysTable) (t : Target) (j : Nat) (w w' : WinWorld) : Prop :=
  (∀ l cap w0 s, j ≠ l → WinQueue tab t l cap w0 w s → WinQueue tab t l cap w0 w' s) ∧
  (∀ l cap s r, j ≠ l → WinHolds t w l cap s → w.held l = some (.ring r) → WinHolds t w' l cap s ∧ w'.held l = some (.ring r))

theorem WinBeside.trans {j : Nat} {w w1 w2 : WinWorld} (h : WinBeside tab t j w w1) (h' : WinBeside tab t j w1 w2) :
    WinBeside tab t j w w2 :=
  ⟨fun l c w0 s a q => h'.1 l c w0 s a (h.1 l c w0 s a q), fun l c s r a q e =>
    have := h.2 l c s r a q e
    h'.2 l c s r a this.1 this.2⟩

theorem WinBeside.step (wf : WinWf t s0) (laid : WinLaid t s0) {j x y : Nat} {data : Nat → Byte} {w w' : WinWorld}
    (reach : WinReach tab t s0 w) (st : w.step tab t (.ringUse j x y data) = .ok w') : WinBeside tab t j w w' := by
  refine ⟨fun l c w0 s hl q0 => ?_, fun l c s r hl g hh => ?_⟩
  · exact .other (op := .ringUse j _ _ _) q0 trivial st (by intro a b c h; injection h with h; exact hl h)
      (fun h => by cases h)
  · exact (g.other (op := .ringUse j _ _ _) wf laid reach hh trivial st
      (by intro a b c h; injection h with h; exact hl h) (fun h => by cases h)).2

/-- The ring inside a new buffered writer. -/
theorem winNew_ring {w : WinWorld} {h : Nat} {s1 : Vmap.Win} {σ : Type} {inner : σ} {b0 : BufWriter σ}
    (made : BufWriter.winNew t w.s inner h = .ok (s1, .ok b0)) :
    w.s.ringNew t h = .ok (s1, .ok b0.buf) ∧ b0.inner = inner ∧ b0.panicked = false := by
  simp only [BufWriter.winNew, bind, Except.bind] at made
  split at made
  · cases made
  · rename_i x hx
    split at made <;> cases made
    exact ⟨hx, rfl, rfl⟩

/-- The trace of a buffered writer while functions of another ring are called. -/
theorem Spec.WinWrites.keep (wf : WinWf t s0) (laid : WinLaid t s0) {W : Writer τ} {i j cap c fuel : Nat} {w0 w w' : WinWorld}
    {b0 b : BufWriter τ} {acc : List Byte} {fits : Prop} {s : Spec.Win} (hij : j ≠ i)
    (calls : WinOnlyCalls tab t (· = j) w w') (tr : WinWrites W fuel tab t i w0 b0 w b acc c fits)
    (reach : WinReach tab t s0 w) (h : WinHolds t w i cap s) (held : w.held i = some (.ring b.buf)) :
    WinWrites W fuel tab t i w0 b0 w' b acc c fits ∧ WinReach tab t s0 w' ∧ WinHolds t w' i cap s ∧
      w'.held i = some (.ring b.buf) := by
  induction calls with
  | refl => exact ⟨tr, reach, h, held⟩
  | ring _ on call ih =>
    rw [on] at call
    clear on
    obtain ⟨r1, v, k, obj, k', r', -, -, -, -, -, -, st⟩ := call
    obtain ⟨a1, a2, a3, a4⟩ := ih
    have nu : ∀ a b c, WinOp.ringUse j r'.rpos r'.wpos (k'.data (obj v.sec.id)) ≠ .ringUse i a b c := by
      intro a b c h; injection h with h; exact hij h
    have nd : WinOp.ringUse j r'.rpos r'.wpos (k'.data (obj v.sec.id)) ≠ .drop i := fun h => by cases h
    exact ⟨.other (op := .ringUse j _ _ _) a1 trivial st nu nd,
      a3.other (op := .ringUse j _ _ _) wf laid a2 a4 trivial st nu nd⟩
  | inf _ on call ih =>
    rw [on] at call
    clear on
    obtain ⟨r1, v, k, obj, k', r', -, -, -, -, -, -, st⟩ := call
    obtain ⟨a1, a2, a3, a4⟩ := ih
    have nu : ∀ a b c, WinOp.infUse j r'.rlen r'.wpos (k'.data (obj v.sec.id)) ≠ .ringUse i a b c := by
      intro a b c h; cases h
    have nd : WinOp.infUse j r'.rlen r'.wpos (k'.data (obj v.sec.id)) ≠ .drop i := fun h => by cases h
    exact ⟨.other (op := .infUse j _ _ _) a1 trivial st nu nd,
      a3.other (op := .infUse j _ _ _) wf laid a2 a4 trivial st nu nd⟩

/-- A `write_all` of a buffered writer in a program is a sequence of calls on it. -/
theorem win_writeAll_trace (wf : WinWf t s0) (laid : WinLaid t s0) (W : Writer τ) {fuel j cap : Nat} {wb : WinWorld}
    {b0 : BufWriter (τ × List WriteEvent)} {obj : Nat → Obj} :
    ∀ (rounds : Nat) {c : Nat} {w : WinWorld} {k k' : Kernel} {b b' : BufWriter (τ × List WriteEvent)}
    {acc data left : List Byte} {x : Out Unit} {fits : Prop} {s : Spec.Win},
    b.writeAll W.spy t fuel rounds k data = .ok (k', b', left, x) →
    WinWrites W.spy fuel tab t j wb b0 w b acc c fits → WinReach tab t s0 w → WinHolds t w j cap s →
    w.held j = some (.ring b.buf) → Wf t k → WinShows w.s k obj → s.total + rounds * cap < posBound t cap →
    ∃ w' acc' c' fits' s', WinWrites W.spy fuel tab t j wb b0 w' b' acc' c' fits' ∧ c' ≤ c + rounds ∧
      WinReach tab t s0 w' ∧ WinHolds t w' j cap s' ∧ s'.total ≤ s.total + rounds * cap ∧
      w'.held j = some (.ring b'.buf) ∧ Wf t k' ∧ WinShows w'.s k' obj ∧ WinBeside tab t j w w' := by
  intro rounds
  induction rounds with
  | zero =>
    intro c w k k' b b' acc data left x fits s e tr reach h held kw sh _
    injection e with e; injection e with h1 h2; injection h2 with h2 h3
    subst h1 h2
    exact ⟨w, acc, c, fits, s, tr, by omega, reach, h, by omega, held, kw, sh, fun _ _ _ _ _ h => h,
      fun _ _ _ _ _ h e => ⟨h, e⟩⟩
  | succ rounds ih =>
    intro c w k k' b b' acc data left x fits s e tr reach h held kw sh below
    rw [Nat.add_mul, Nat.one_mul] at below
    simp only [BufWriter.writeAll] at e
    split at e
    · injection e with e; injection e with h1 h2; injection h2 with h2 h3
      subst h1 h2
      exact ⟨w, acc, c, fits, s, tr, by omega, reach, h, by omega, held, kw, sh, fun _ _ _ _ _ h => h,
        fun _ _ _ _ _ h e => ⟨h, e⟩⟩
    · obtain ⟨⟨k1, b1, y⟩, e1, e⟩ := bind_ok e
      have ex : b.exec W.spy t fuel k (.write data) = .ok ((k1, b1), y) := by
        simp only [BufWriter.exec, e1, bind, Except.bind, pure, Except.pure]
      obtain ⟨vw, hl⟩ := h.view wf laid reach held kw sh
      obtain ⟨k2, b2, x2, ev, n2, q2, sp2, e2, vw2, hn, -⟩ := wr_step W vw (by rw [hl]; omega) fuel (.write data)
      rw [ex] at e2
      simp only [Except.ok.injEq, Prod.mk.injEq] at e2
      obtain ⟨⟨rfl, rfl⟩, rfl⟩ := e2
      obtain ⟨w1, ⟨v, hv, hb⟩, st, f1, f2, f3, f4, f5⟩ := h.used wf laid reach held kw sh (c := 1)
        (by omega) (wr_exec_uses ex) vw2
      have tr1 := tr.call ⟨v, k, obj, k1, held, hv, hb, kw, sh, ex, st v hv hb⟩
      have bs := WinBeside.step wf laid reach (st v hv hb)
      rw [hl] at hn
      dsimp only at e
      have stop : ∀ {l : List Byte} {z : Out Unit},
          (pure (k1, b1, l, z) : Exec (Kernel × BufWriter (τ × List WriteEvent) × List Byte × Out Unit)) =
            .ok (k', b', left, x) →
          ∃ w' acc' c' fits' s', WinWrites W.spy fuel tab t j wb b0 w' b' acc' c' fits' ∧ c' ≤ c + (rounds + 1) ∧
            WinReach tab t s0 w' ∧ WinHolds t w' j cap s' ∧ s'.total ≤ s.total + (rounds + 1) * cap ∧
            w'.held j = some (.ring b'.buf) ∧ Wf t k' ∧ WinShows w'.s k' obj ∧ WinBeside tab t j w w' := by
        intro l z h
        injection h with h; injection h with h1 h2; injection h2 with h2 h3
        subst h1 h2
        exact ⟨w1, _, _, _, _, tr1, by omega, f1, f3, by simp only [Nat.add_mul, Nat.one_mul]; omega, f2, f4, f5, bs⟩
      have more : ∀ {d : List Byte}, b1.writeAll W.spy t fuel rounds k1 d = .ok (k', b', left, x) →
          ∃ w' acc' c' fits' s', WinWrites W.spy fuel tab t j wb b0 w' b' acc' c' fits' ∧ c' ≤ c + (rounds + 1) ∧
            WinReach tab t s0 w' ∧ WinHolds t w' j cap s' ∧ s'.total ≤ s.total + (rounds + 1) * cap ∧
            w'.held j = some (.ring b'.buf) ∧ Wf t k' ∧ WinShows w'.s k' obj ∧ WinBeside tab t j w w' := by
        intro d h
        obtain ⟨w', acc', c', fits', s', g1, g2, g3, g4, g5, g6, g7, g8, g9⟩ := ih h tr1 f1 f3 f2 f4 f5
          (by simp only; omega)
        refine ⟨w', acc', c', fits', s', g1, by omega, g3, g4, ?_, g6, g7, g8, bs.trans g9⟩
        simp only [Nat.add_mul, Nat.one_mul] at g5 ⊢
        omega
      split at e
      · exact stop e
      · split at e
        · cases e
        · exact more e
      · split at e
        · exact more e
        · exact stop e
      · exact stop e
      · exact stop e

theorem win_ring_to_writer (wf : WinWf t s0) (laid : WinLaid t s0) (W : Writer τ) (hW : W.Honest) (fuel rounds : Nat)
    {size : Nat} (pos : 0 < size) {i j : Nat} (hij : i ≠ j) {wa wb : WinWorld} {b0 : BufWriter (τ × List WriteEvent)}
    {capa cap : Nat} (ra : WinReach tab t s0 wa) (starta : WinHolds t wa i capa ⟨List.replicate capa 0, [], 0⟩)
    {obj : Nat → Obj} :
    ∀ (steps : Nat) {w : WinWorld} {k : Kernel} {a : Ring} {b : BufWriter (τ × List WriteEvent)} {sa s : Spec.Win}
    {acc : List Byte} {c : Nat} {fits : Prop}
    (_ : WinQueue tab t i capa wa w sa) (_ : w.held i = some (.ring a))
    (_ : WinWrites W.spy fuel tab t j wb b0 w b acc c fits) (_ : WinReach tab t s0 w) (_ : WinHolds t w j cap s)
    (_ : w.held j = some (.ring b.buf)) (_ : Wf t k) (_ : WinShows w.s k obj)
    (_ : s.total + steps * (rounds * cap) < posBound t cap) (len : Nat),
    ∃ k' a' b' x w' sa' s' acc' c' fits' ew moved lost,
      Ring.copyToWriter W.spy t fuel rounds size steps k a b len = .ok (k', a', b', x) ∧
      WinQueue tab t i capa wa w' sa' ∧ w'.held i = some (.ring a') ∧
      WinWrites W.spy fuel tab t j wb b0 w' b' acc' c' fits' ∧ c' ≤ c + steps * rounds ∧ WinReach tab t s0 w' ∧
      WinHolds t w' j cap s' ∧ w'.held j = some (.ring b'.buf) ∧ Wf t k' ∧ WinShows w'.s k' obj ∧
      (∀ l cap w0 s, i ≠ l → j ≠ l → WinQueue tab t l cap w0 w s → WinQueue tab t l cap w0 w' s) ∧
      b'.inner.2 = b.inner.2 ++ ew ∧ sa.q = moved ++ lost ++ sa'.q ∧ (received ew ++ s'.q).Perm (s.q ++ moved) ∧
      (sa.q = [] ∨ (s.q = [] ∧ sa.q.length ≤ size) ∨ s.q.length + sa.q.length < cap →
        received ew ++ s'.q = s.q ++ moved) ∧
      match x with
      | .ok c => c = len + moved.length ∧ lost = [] ∧ sa'.q = []
      | .err e => lost ≠ [] ∧ WriteFailed ew e ∧ e.kind ≠ .interrupted
      | .unwound => lost ≠ [] ∧ WritePanicked ew
      | .pending => steps ≤ moved.length ∨ rounds ≤ moved.length + refused ew ∨ fuel ≤ cap + refused ew := by
  intro steps
  induction steps with
  | zero =>
    intro w k a b sa s acc c fits ta ha tr reach h held kw sh _ len
    exact ⟨k, a, b, .pending, w, sa, s, acc, c, fits, [], [], [], rfl, ta, ha, tr, by omega, reach, h, held, kw, sh,
      fun _ _ _ _ _ _ h => h, by simp, by simp, by simp [received], by simp [received], .inl (by simp)⟩
  | succ steps ih =>
    intro w k a b sa s acc c fits ta ha tr reach h held kw sh hbw len
    simp only [Nat.add_mul, Nat.one_mul] at hbw
    obtain ⟨a1, w1, e1, oc1, ⟨sa1, ta1, ha1, hq1⟩, sh1⟩ :=
      (win_ring_source wf laid ra starta).read ⟨sa, ta, ha, rfl⟩ kw sh size
    obtain ⟨tr1, rc1, h1, held1⟩ := WinWrites.keep wf laid hij oc1 tr reach h held
    have fr1 : ∀ l cap w0 s, i ≠ l → WinQueue tab t l cap w0 w s → WinQueue tab t l cap w0 w1 s :=
      fun _ _ _ _ a h => h.across a oc1
    have hlen : (sa.q.take size).length = min size sa.q.length := List.length_take
    rw [Ring.copyToWriter, e1]
    simp only [bind, Except.bind]
    by_cases h0 : (sa.q.take size).length = 0
    · rw [if_pos h0]
      have hz : sa.q = [] := List.eq_nil_of_length_eq_zero (by omega)
      have hz1 : sa1.q = [] := by rw [hq1, hz, List.drop_nil]
      exact ⟨k, a1, b, .ok len, w1, sa1, s, acc, c, fits, [], [], [], rfl, ta1, ha1, tr1, by omega, rc1, h1, held1, kw, sh1,
        fun l c0 w0 s a _ h => fr1 l c0 w0 s a h, by simp, by rw [hz, hz1]; rfl, by simp [received], by simp [received], by simp, rfl, hz1⟩
    · rw [if_neg h0, if_neg (by omega)]
      obtain ⟨vw, hl⟩ := h1.view wf laid rc1 held1 kw sh1
      have hvl := vw.len
      obtain ⟨k2, b2, ac, left, y, ev2, n2, q2, sp2, e2, v2, -, l2, lg2, hdat, pm2, or2, res2⟩ :=
        writeAll_view W hW fuel rounds (sa.q.take size) vw (by rw [hl]; omega)
      obtain ⟨w2, acc2, c2, fits2, s2, tr2, hc2, rc2, h2, ht2, held2, kw2, sh2, bs2⟩ :=
        win_writeAll_trace wf laid W rounds e2 tr1 rc1 h1 held1 kw sh1 (by omega)
      have hq2 : q2 = s2.q := by
        have := v2.readSlice
        rw [(h2.view wf laid rc2 held2 kw2 sh2).1.readSlice] at this
        injection this with this
        exact this.symm
      subst hq2
      have ta2 := bs2.1 _ _ _ _ (Ne.symm hij) ta1
      have ha2 := (bs2.2 _ _ _ _ (Ne.symm hij) (WinQueue.holds wf laid ra starta ta1).2 ha1).2
      have fr2 : ∀ l cap w0 s, i ≠ l → j ≠ l → WinQueue tab t l cap w0 w s → WinQueue tab t l cap w0 w2 s :=
        fun l c0 w0 s a b h => bs2.1 l c0 w0 s b (fr1 l c0 w0 s a h)
      rw [e2]
      have hsplit : sa.q = ac ++ left ++ sa1.q := by rw [← hdat, hq1, List.take_append_drop]
      have hord : sa.q = [] ∨ (s.q = [] ∧ sa.q.length ≤ size) ∨ s.q.length + sa.q.length < cap →
          received ev2 ++ s2.q = s.q ++ ac := by
        intro hc
        apply or2
        intro hfit
        rcases hc with hc | hc | hc
        · rw [hc] at h0; simp at h0
        · exact hc.1
        · omega
      have hcc : c + rounds ≤ c + (steps + 1) * rounds := by rw [Nat.add_mul, Nat.one_mul]; omega
      cases y with
      | err e =>
        exact ⟨k2, a1, b2, .err e, w2, sa1, s2, acc2, c2, fits2, ev2, ac, left, rfl, ta2, ha2, tr2, by omega, rc2, h2, held2,
          kw2, sh2, fr2, lg2, hsplit, pm2, hord, res2⟩
      | unwound =>
        exact ⟨k2, a1, b2, .unwound, w2, sa1, s2, acc2, c2, fits2, ev2, ac, left, rfl, ta2, ha2, tr2, by omega, rc2, h2, held2,
          kw2, sh2, fr2, lg2, hsplit, pm2, hord, res2⟩
      | pending =>
        exact ⟨k2, a1, b2, .pending, w2, sa1, s2, acc2, c2, fits2, ev2, ac, left, rfl, ta2, ha2, tr2, by omega, rc2, h2, held2,
          kw2, sh2, fr2, lg2, hsplit, pm2, hord, .inr (res2.imp id (fun hz => by omega))⟩
      | ok u =>
        have hleft : left = [] := res2
        subst hleft
        rw [List.append_nil] at hdat hsplit
        have hacc : ac.length = min size sa.q.length := by rw [← hdat, hlen]
        simp only
        obtain ⟨k3, a3, b3, z, w3, sa3, s3, acc3, c3, fits3, ew3, mv3, lost3, e3, ta3, ha3, tr3, hc3, rc3, h3, held3, kw3, sh3,
          fr3, lg3, sp3, pm3, or3, res3⟩ := ih ta2 ha2 tr2 rc2 h2 held2 kw2 sh2 (by omega) (len + (sa.q.take size).length)
        refine ⟨k3, a3, b3, z, w3, sa3, s3, acc3, c3, fits3, ev2 ++ ew3, ac ++ mv3, lost3, e3, ta3, ha3, tr3,
          by rw [Nat.add_mul, Nat.one_mul]; omega, rc3, h3, held3, kw3, sh3,
          fun l c0 w0 s a b h => fr3 l c0 w0 s a b (fr2 l c0 w0 s a b h), by rw [lg3, lg2, List.append_assoc], ?_, ?_, ?_, ?_⟩
        · rw [List.append_assoc, List.append_assoc, ← List.append_assoc mv3, ← sp3]; exact hsplit
        · rw [received_append, List.append_assoc]
          refine (List.Perm.append_left _ pm3).trans ?_
          rw [← List.append_assoc, ← List.append_assoc]
          exact List.Perm.append_right _ pm2
        · intro hc
          have hl := pm2.length_eq
          simp only [List.length_append] at hl
          have h3 := or3 (by
            rw [hq1]
            rcases hc with hc | hc | hc
            · rw [hc]; exact .inl List.drop_nil
            · exact .inl (List.drop_eq_nil_of_le hc.2)
            · exact .inr (.inr (by rw [List.length_drop]; omega)))
          rw [received_append, List.append_assoc, h3, ← List.append_assoc, hord hc, List.append_assoc]
        · cases z with
          | ok c =>
            refine ⟨?_, res3.2⟩
            rw [res3.1, List.length_append]; omega
          | err e => exact ⟨res3.1, res3.2.1.after _, res3.2.2⟩
          | unwound => exact ⟨res3.1, res3.2.after _⟩
          | pending =>
            simp only [List.length_append, refused_append]
            simp only at res3
            omega

end
end Vmap
