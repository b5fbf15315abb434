import Verif.Model.BufChain
import Verif.Proofs.BufCopyInf
/- Helper lemmas for C178. -/
namespace Vmap
open Kernel Spec

section
variable {σ σ' : Type} {tab : SysTable} {t : Target} {k0 : Kernel}

theorem chain_second (wf : Wf t k0) (R : Reader σ) (R' : Reader σ') (hR : R'.Honest)
    (a : BufReader σ) {j : Nat} :
    ∀ (steps : Nat) (dst : Nat → List Byte) (_ : ∀ i, dst i ≠ []) {w : World}
    (_ : Reach tab t k0 w) {m : Nat} {b : BufReader (σ' × List ReadEvent)}
    (_ : w.held j = some (.ring b.buf m)) {q : List Byte} (_ : b.buffer t w.k = .ok q)
    (_ : m + steps * b.buf.len < posBound t b.buf.len) (acc : List Byte),
    ∃ b' x q' eb got w',
      BufReader.chainToEnd R R'.spy t steps dst w.k a b true acc = .ok (w'.k, a, b', true, acc ++ got, x) ∧
      OnlyCalls tab t (· = j) w w' ∧
      b'.buffer t w'.k = .ok q' ∧ b'.inner.2 = b.inner.2 ++ eb ∧ q ++ taken eb = got ++ q' ∧
      match x with
      | .ok () => q' = [] ∧ SaidEof eb
      | .err e => SaidErr eb e
      | .unwound => SaidPanic eb
      | .pending => steps ≤ got.length + interrupts eb := by
  intro steps
  induction steps with
  | zero =>
    intro dst hd w h n r hi q hq _ acc
    exact ⟨r, .pending, q, [], [], w, by simp [BufReader.chainToEnd, pure, Except.pure], .refl, hq, by simp,
      by simp [taken], by simp⟩
  | succ steps ih =>
    intro dst hd w h n r hi q hq hb acc
    simp only [Nat.add_mul, Nat.one_mul] at hb
    obtain ⟨r1, d, x, n1, q1, ev1, w1, e1, c1, hi1, hn1, l1, hq1, lg1, st⟩ :=
      read_calls wf h R' hR hi hq (by omega) (dst 0)
    have rc1 := c1.reach h
    rw [BufReader.chainToEnd, BufReader.chainRead, if_pos rfl, e1]
    simp only [bind, Except.bind, pure, Except.pure]
    cases st with
    | got m le dlen cons eof intr =>
      cases m with
      | zero =>
        obtain ⟨hq, hq', he⟩ := eof rfl (hd 0)
        exact ⟨r1, .ok (), q1, ev1, [], w1, by simp, c1, hq1, lg1, by simpa using cons.symm, hq', he⟩
      | succ m =>
        simp only
        rw [if_neg (by omega)]
        have hlen : (d.take (m + 1)).length = m + 1 := by rw [List.length_take]; omega
        obtain ⟨r3, x, q3, er, got, w3, e3, c3, hq3, lg3, sp3, res⟩ :=
          ih (fun i => dst (i + 1)) (fun i => hd (i + 1)) rc1 hi1 hq1 (by rw [l1]; omega) (acc ++ d.take (m + 1))
        refine ⟨r3, x, q3, ev1 ++ er, d.take (m + 1) ++ got, w3, ?_, c1.trans c3, hq3,
          by rw [lg3, lg1, List.append_assoc], ?_, ?_⟩
        · rw [e3, List.append_assoc]
        · rw [taken_append, ← List.append_assoc, ← cons, List.append_assoc, sp3]
          simp only [List.append_assoc]
        · cases x with
          | ok c => exact ⟨res.1, res.2.after _⟩
          | err e => exact res.after _
          | unwound => exact res.after _
          | pending =>
            have := res
            simp only at this
            rw [List.length_append, interrupts_append]; omega
    | failed e stored dlen resp =>
      rename_i x
      simp only
      have ht : taken [x] = [] := by rw [taken_one, ReadEvent.bytes, resp]
      by_cases hk : e.kind = .interrupted
      · rw [if_pos hk]
        obtain ⟨r3, y, q3, er, got, w3, e3, c3, hq3, lg3, sp3, res⟩ :=
          ih (fun i => dst (i + 1)) (fun i => hd (i + 1)) rc1 hi1 hq1 (by rw [l1]; omega) acc
        have hc : interrupts [x] = 1 := by simp [interrupts, resp, hk]
        refine ⟨r3, y, q3, [x] ++ er, got, w3, e3, c1.trans c3, hq3,
          by rw [lg3, lg1, List.append_assoc], by rw [taken_append, ht, List.nil_append]; exact sp3, ?_⟩
        cases y with
        | ok c => exact ⟨res.1, res.2.after _⟩
        | err e => exact res.after _
        | unwound => exact res.after _
        | pending =>
          have := res
          simp only at this
          rw [interrupts_append, hc]; omega
      · rw [if_neg hk]
        exact ⟨r1, .err e, _, _, [], w1, by simp, c1, hq1, lg1, by simp [ht], hk, [], x, stored, rfl, resp⟩
    | unwound stored resp =>
      rename_i x
      have ht : taken [x] = [] := by rw [taken_one, ReadEvent.bytes, resp]
      exact ⟨r1, .unwound, _, _, [], w1, by simp, c1, hq1, lg1, by simp [ht], [], x, stored, rfl, resp⟩

theorem chain_to_end (wf : Wf t k0) (R : Reader σ) (hR : R.Honest) (R' : Reader σ') (hR' : R'.Honest) {i j : Nat}
    (hij : i ≠ j) :
    ∀ (steps : Nat) (dst : Nat → List Byte) (_ : ∀ i, dst i ≠ []) {w : World}
    (_ : Reach tab t k0 w) {n m : Nat} {a : BufReader (σ × List ReadEvent)} {b : BufReader (σ' × List ReadEvent)}
    (_ : w.held i = some (.ring a.buf n)) (_ : w.held j = some (.ring b.buf m)) {qa qb : List Byte}
    (_ : a.buffer t w.k = .ok qa) (_ : b.buffer t w.k = .ok qb)
    (_ : n + steps * a.buf.len < posBound t a.buf.len)
    (_ : m + steps * b.buf.len < posBound t b.buf.len) (acc : List Byte),
    ∃ a' b' done x qa' qb' ea eb ga gb w',
      BufReader.chainToEnd R.spy R'.spy t steps dst w.k a b false acc = .ok (w'.k, a', b', done, acc ++ (ga ++ gb), x) ∧
      OnlyCalls tab t (fun l => l = i ∨ l = j) w w' ∧
      a'.buffer t w'.k = .ok qa' ∧ b'.buffer t w'.k = .ok qb' ∧
      a'.inner.2 = a.inner.2 ++ ea ∧ b'.inner.2 = b.inner.2 ++ eb ∧
      qa ++ taken ea = ga ++ qa' ∧ qb ++ taken eb = gb ++ qb' ∧
      (done = true → qa' = [] ∧ SaidEof ea) ∧ (done = false → gb = [] ∧ eb = []) ∧
      match x with
      | .ok () => done = true ∧ qb' = [] ∧ SaidEof eb
      | .err e => if done then SaidErr eb e else SaidErr ea e
      | .unwound => if done then SaidPanic eb else SaidPanic ea
      | .pending => steps ≤ ga.length + gb.length + interrupts ea + interrupts eb := by
  intro steps
  induction steps with
  | zero =>
    intro dst hd w h n m a b hi hj qa qb hqa hqb _ _ acc
    exact ⟨a, b, false, .pending, qa, qb, [], [], [], [], w, by simp [BufReader.chainToEnd, pure, Except.pure], .refl,
      hqa, hqb, by simp, by simp, by simp [taken], by simp [taken], by simp, by simp, by simp⟩
  | succ steps ih =>
    intro dst hd w h n m a b hi hj qa qb hqa hqb hba hbb acc
    have hbb' := hbb
    simp only [Nat.add_mul, Nat.one_mul] at hba hbb
    obtain ⟨r1, d, x, n1, q1, ev1, w1, e1, c1, hi1, hn1, l1, hq1, lg1, st⟩ :=
      read_calls wf h R hR hi hqa (by omega) (dst 0)
    have rc1 := c1.reach h
    have m1 : OnlyCalls tab t (fun l => l = i ∨ l = j) w w1 := c1.mono (fun l h => .inl h)
    obtain ⟨hj1, hqb1⟩ := calls_keep wf (Ne.symm hij) h c1 hj hqb
    have hd0 : (dst 0).length ≠ 0 := fun hc => hd 0 (List.eq_nil_of_length_eq_zero hc)
    cases st with
    | got z le dlen cons eof intr =>
      cases z with
      | zero =>
        obtain ⟨hq, hq', he⟩ := eof rfl (hd 0)
        -- from here on it is the second reader's turn, with the same destination
        have same : BufReader.chainToEnd R.spy R'.spy t (steps + 1) dst w.k a b false acc =
            BufReader.chainToEnd R.spy R'.spy t (steps + 1) (fun i => if i = 0 then d else dst i) w1.k r1 b true acc := by
          rw [BufReader.chainToEnd, BufReader.chainRead, if_neg (by decide), e1, BufReader.chainToEnd,
            BufReader.chainRead, if_pos rfl]
          simp only [bind, Except.bind, pure, Except.pure, hd0, ne_eq, not_false_eq_true, and_self, if_true]
          rfl
        obtain ⟨b2, x, qb2, eb, got, w2, e2, c2, hqb2, lg2, sp2, res⟩ :=
          chain_second wf R.spy R' hR' r1 (steps + 1) (fun i => if i = 0 then d else dst i)
            (fun i => by
              by_cases hz : i = 0
              · subst hz
                intro hc
                rw [if_pos rfl] at hc
                rw [hc] at dlen
                exact hd0 dlen.symm
              · rw [if_neg hz]; exact hd i) rc1 hj1 hqb1 hbb' acc
        obtain ⟨-, hqa2⟩ := calls_keep wf hij rc1 c2 hi1 hq1
        refine ⟨r1, b2, true, x, q1, qb2, ev1, eb, [], got, w2, by rw [same, e2]; simp,
          m1.trans (c2.mono (fun l h => .inr h)), hqa2, hqb2, lg1, lg2, by simpa using cons.symm, sp2,
          fun _ => ⟨hq', he⟩, by simp, ?_⟩
        cases x with
        | ok c => exact ⟨rfl, res⟩
        | err e => exact res
        | unwound => exact res
        | pending =>
          have := res
          simp only at this
          rw [List.length_nil]; omega
      | succ z =>
        rw [BufReader.chainToEnd, BufReader.chainRead, if_neg (by decide), e1]
        simp only [bind, Except.bind, pure, Except.pure]
        rw [if_neg (by omega)]
        simp only
        rw [if_neg (by omega)]
        have hlen : (d.take (z + 1)).length = z + 1 := by rw [List.length_take]; omega
        obtain ⟨a3, b3, done, x, qa3, qb3, ea, eb, ga, gb, w3, e3, c3, hqa3, hqb3, la3, lb3, sa3, sb3, f1, f2, res⟩ :=
          ih (fun i => dst (i + 1)) (fun i => hd (i + 1)) rc1 hi1 hj1 hq1 hqb1
            (by rw [l1]; omega) (by omega) (acc ++ d.take (z + 1))
        refine ⟨a3, b3, done, x, qa3, qb3, ev1 ++ ea, eb, d.take (z + 1) ++ ga, gb, w3, ?_, m1.trans c3, hqa3, hqb3,
          by rw [la3, lg1, List.append_assoc], lb3, ?_, sb3, fun hc => ⟨(f1 hc).1, (f1 hc).2.after _⟩, f2, ?_⟩
        · rw [e3]; simp only [List.append_assoc]
        · rw [taken_append, ← List.append_assoc, ← cons, List.append_assoc, sa3]
          simp only [List.append_assoc]
        · cases x with
          | ok c => exact res
          | err e =>
            cases done with
            | true => exact res
            | false => exact SaidErr.after (by simpa using res) _
          | unwound =>
            cases done with
            | true => exact res
            | false => exact SaidPanic.after (by simpa using res) _
          | pending =>
            have := res
            simp only at this
            rw [List.length_append, interrupts_append]; omega
    | failed e stored dlen resp =>
      rename_i x
      rw [BufReader.chainToEnd, BufReader.chainRead, if_neg (by decide), e1]
      simp only [bind, Except.bind, pure, Except.pure]
      have ht : taken [x] = [] := by rw [taken_one, ReadEvent.bytes, resp]
      by_cases hk : e.kind = .interrupted
      · rw [if_pos hk]
        obtain ⟨a3, b3, done, y, qa3, qb3, ea, eb, ga, gb, w3, e3, c3, hqa3, hqb3, la3, lb3, sa3, sb3, f1, f2, res⟩ :=
          ih (fun i => dst (i + 1)) (fun i => hd (i + 1)) rc1 hi1 hj1 hq1 hqb1
            (by rw [l1]; omega) (by omega) acc
        have hc : interrupts [x] = 1 := by simp [interrupts, resp, hk]
        refine ⟨a3, b3, done, y, qa3, qb3, [x] ++ ea, eb, ga, gb, w3, e3, m1.trans c3, hqa3, hqb3,
          by rw [la3, lg1, List.append_assoc], lb3, by rw [taken_append, ht, List.nil_append]; exact sa3, sb3,
          fun hc => ⟨(f1 hc).1, (f1 hc).2.after _⟩, f2, ?_⟩
        cases y with
        | ok c => exact res
        | err e =>
          cases done with
          | true => exact res
          | false => exact SaidErr.after (by simpa using res) _
        | unwound =>
          cases done with
          | true => exact res
          | false => exact SaidPanic.after (by simpa using res) _
        | pending =>
          have := res
          simp only at this
          rw [interrupts_append, hc]; omega
      · rw [if_neg hk]
        exact ⟨r1, b, false, .err e, _, qb, _, [], [], [], w1, by simp, m1, hq1, hqb1, lg1, by simp, by simp [ht],
          by simp [taken], by simp, by simp, hk, [], x, stored, rfl, resp⟩
    | unwound stored resp =>
      rename_i x
      rw [BufReader.chainToEnd, BufReader.chainRead, if_neg (by decide), e1]
      have ht : taken [x] = [] := by rw [taken_one, ReadEvent.bytes, resp]
      exact ⟨r1, b, false, .unwound, _, qb, _, [], [], [], w1,
        by simp [bind, Except.bind, pure, Except.pure], m1, hq1, hqb1, lg1, by simp, by simp [ht],
        by simp [taken], by simp, by simp, [], x, stored, rfl, resp⟩

end
end Vmap
