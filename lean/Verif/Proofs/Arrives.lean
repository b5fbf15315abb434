import Verif.Spec.Arrives
import Verif.Model.BufAdapt
import Verif.Proofs.BufAdapt
/- Helper lemmas for C177. -/
namespace Vmap
open Kernel Spec

theorem arrive_kept (cap : Nat) (q p : List Byte) : (arrive cap q p).2.length = level cap q.length p.length := by
  unfold arrive level
  split
  · simp
  split
  · rfl
  split <;> rfl

theorem arrive_order {cap : Nat} {q p : List Byte} (h : ¬ (0 < q.length ∧ 0 < p.length ∧ q.length + p.length = cap)) :
    (arrive cap q p).1 ++ (arrive cap q p).2 = q ++ p := by
  unfold arrive
  split
  · simp
  split
  · have : q = [] ∨ p = [] := by
      rcases Nat.eq_zero_or_pos q.length with h1 | h1
      · exact .inl (List.eq_nil_of_length_eq_zero h1)
      · rcases Nat.eq_zero_or_pos p.length with h2 | h2
        · exact .inr (List.eq_nil_of_length_eq_zero h2)
        · exact absurd ⟨h1, h2, by assumption⟩ h
    rcases this with h | h <;> subst h <;> simp
  split <;> simp

theorem arrival_order {cap : Nat} : ∀ (ps : List (List Byte)) {q : List Byte},
    NoFit cap q.length (ps.map List.length) → arrival cap q ps = q ++ ps.flatten := by
  intro ps
  induction ps with
  | nil => intro q _; simp [arrival]
  | cons p ps ih =>
    intro q h
    rw [List.map_cons, NoFit] at h
    have := ih (q := (arrive cap q p).2) (by rw [arrive_kept]; exact h.2)
    rw [arrival, this, ← List.append_assoc, arrive_order h.1, List.flatten_cons, List.append_assoc]

theorem zeros_len (ns : List Nat) : (ns.map (fun n => List.replicate n (0 : Byte))).map List.length = ns := by
  induction ns with
  | nil => rfl
  | cons n ns ih => rw [List.map_cons, List.map_cons, ih, List.length_replicate]

theorem arrive_zeros (cap l n : Nat) :
    (arrive cap (List.replicate l (0 : Byte)) (List.replicate n 0)).2 = List.replicate (level cap l n) 0 := by
  unfold arrive level
  simp only [List.length_replicate]
  split
  · rw [List.replicate_append_replicate]
  split
  · rfl
  split <;> rfl

theorem arrival_fit {cap : Nat} : ∀ (ns : List Nat) {l : Nat}, ¬ NoFit cap l ns →
    ∃ ps : List (List Byte), ps.map List.length = ns ∧
      arrival cap (List.replicate l 0) ps ≠ List.replicate l 0 ++ ps.flatten := by
  intro ns
  induction ns with
  | nil => intro l h; exact absurd trivial h
  | cons n ns ih =>
    intro l h
    by_cases hf : 0 < l ∧ 0 < n ∧ l + n = cap
    · obtain ⟨a, rfl⟩ : ∃ a, l = a + 1 := ⟨l - 1, by omega⟩
      obtain ⟨c, rfl⟩ : ∃ c, n = c + 1 := ⟨n - 1, by omega⟩
      refine ⟨List.replicate (c + 1) 1 :: ns.map (fun n => List.replicate n (0 : Byte)), ?_, ?_⟩
      · rw [List.map_cons, zeros_len, List.length_replicate]
      · intro he
        have := congrArg List.head? he
        rw [arrival, arrive, List.length_replicate, List.length_replicate, if_neg (by omega), if_pos hf.2.2] at this
        rw [List.replicate_succ, List.replicate_succ] at this
        simp at this
    · have h2 : ¬ NoFit cap (level cap l n) ns := fun h3 => h ⟨hf, h3⟩
      obtain ⟨ps, h4, h5⟩ := ih h2
      refine ⟨List.replicate n 0 :: ps, by rw [List.map_cons, h4, List.length_replicate], ?_⟩
      intro he
      apply h5
      have ho := arrive_order (cap := cap) (q := List.replicate l (0 : Byte)) (p := List.replicate n 0)
        (by simpa only [List.length_replicate] using hf)
      rw [arrival, List.flatten_cons, ← List.append_assoc, ← ho, List.append_assoc, arrive_zeros] at he
      exact List.append_cancel_left he

section
variable {τ : Type} {W : Writer τ} {t : Target}

theorem spy_takes (hW : TakesGiven W) (s : τ × List WriteEvent) (data : List Byte) :
    ∃ s', W.spy.write s data = ((s', s.2 ++ [.write data (.ok data.length)]), .ok data.length) := by
  refine ⟨(W.write s.1 data).1, ?_⟩
  simp only [Writer.spy, hW.write]

theorem flush_all (hW : TakesGiven W) {k : Kernel} {b : BufWriter (τ × List WriteEvent)} {n : Nat}
    {q sp : List Byte} (v : View t k b.buf n q sp) (fuel : Nat) :
    ∃ b' sp' ev, BufWriter.flushBuf W.spy t k (fuel + 2) b = .ok (b', .ok ()) ∧ View t k b'.buf n [] sp' ∧
      b'.buf.len = b.buf.len ∧ b'.inner.2 = b.inner.2 ++ ev ∧ received ev = q := by
  by_cases h0 : q = []
  · subst h0
    refine ⟨b, sp, [], ?_, v, rfl, by simp, rfl⟩
    rw [BufWriter.flushBuf]
    simp only [v.isEmpty_eq, bind, Except.bind]
    rfl
  have hpos := List.length_pos_iff.mpr h0
  obtain ⟨m, hm⟩ : ∃ m, q.length = m + 1 := ⟨q.length - 1, by omega⟩
  obtain ⟨r, e1, v1, l1, -⟩ := v.consume (m + 1)
  rw [List.drop_of_length_le (by omega)] at v1
  obtain ⟨s', es⟩ := spy_takes hW b.inner q
  refine ⟨⟨r, (s', b.inner.2 ++ [.write q (.ok q.length)]), false⟩, _, [.write q (.ok q.length)], ?_, v1, l1, rfl, ?_⟩
  · rw [BufWriter.flushBuf]
    simp only [v.isEmpty_eq, BufWriter.buffered, v.readSlice, bind, Except.bind, es, hm]
    rw [if_neg (by simp)]
    simp only [e1]
    rw [BufWriter.flushBuf]
    simp only [v1.isEmpty_eq, bind, Except.bind]
    rfl
  · simp [received, WriteEvent.bytes]

theorem piece_all (hW : TakesGiven W) {k : Kernel} {b : BufWriter (τ × List WriteEvent)} {n : Nat}
    {q sp : List Byte} (v : View t k b.buf n q sp) {p : List Byte}
    (hb : n + p.length < posBound t b.buf.len) (fuel rounds : Nat) :
    ∃ k' b' n' sp' ev, b.writeAll W.spy t (fuel + 2) (rounds + 2) k p = .ok (k', b', [], .ok ()) ∧
      View t k' b'.buf n' (arrive b.buf.len q p).2 sp' ∧ n' ≤ n + p.length ∧ b'.buf.len = b.buf.len ∧
      b'.inner.2 = b.inner.2 ++ ev ∧ received ev = (arrive b.buf.len q p).1 := by
  have hl := v.len
  by_cases h0 : p = []
  · subst h0
    refine ⟨k, b, n, sp, [], by simp [BufWriter.writeAll, pure, Except.pure], ?_, by simp, rfl, by simp, ?_⟩
    · have : (arrive b.buf.len q []).2 = q := by
        unfold arrive
        split
        · simp
        split
        · rfl
        · simp at *; omega
      rw [this]; exact v
    · unfold arrive
      split
      · rfl
      split
      · rfl
      · simp at *; omega
  have hpos := List.length_pos_iff.mpr h0
  obtain ⟨m, hm⟩ : ∃ m, p.length = m + 1 := ⟨p.length - 1, by omega⟩
  -- it is enough to look at one `write`
  have one : ∀ {k' : Kernel} {b' : BufWriter (τ × List WriteEvent)},
      b.write W.spy t (fuel + 2) k p = .ok (k', b', .ok p.length) →
      b.writeAll W.spy t (fuel + 2) (rounds + 2) k p = .ok (k', b', [], .ok ()) := by
    intro k' b' e
    rw [BufWriter.writeAll, if_neg (by omega), e]
    simp only [bind, Except.bind, hm]
    rw [if_neg (by omega), BufWriter.writeAll, ← hm]
    simp [pure, Except.pure]
  by_cases h1 : q.length + p.length < b.buf.len
  · have ha : arrive b.buf.len q p = ([], q ++ p) := by rw [arrive, if_pos h1]
    rw [ha]
    obtain ⟨k', r', e, v', l, -⟩ := v.write p (by omega)
    rw [show min p.length sp.length = p.length by omega] at e v'
    rw [List.take_of_length_le (by omega)] at v'
    refine ⟨k', { b with buf := r' }, _, _, [], one ?_, v', Nat.le_refl _, l, by simp, rfl⟩
    simp only [BufWriter.write, BufWriter.writeRest, v.writeLen, bind, Except.bind]
    rw [if_neg (by omega), if_neg (by omega), e]
    rfl
  by_cases h2 : q.length + p.length = b.buf.len
  · have ha : arrive b.buf.len q p = (p, q) := by rw [arrive, if_neg h1, if_pos h2]
    rw [ha]
    obtain ⟨s', es⟩ := spy_takes hW b.inner p
    refine ⟨k, { b with inner := (s', b.inner.2 ++ [.write p (.ok p.length)]), panicked := false }, n, sp,
      [.write p (.ok p.length)], one ?_, v, by omega, rfl, rfl, by simp [received, WriteEvent.bytes]⟩
    simp only [BufWriter.write, BufWriter.writeRest, v.writeLen, bind, Except.bind]
    rw [if_neg (by omega), if_pos (by omega), es]
    rfl
  obtain ⟨b1, sp1, ev1, e1, v1, l1, lg1, r1⟩ := flush_all hW v fuel
  have hl1 := v1.len
  rw [List.length_nil] at hl1
  by_cases h3 : p.length < b.buf.len
  · have ha : arrive b.buf.len q p = (q, p) := by rw [arrive, if_neg h1, if_neg h2, if_pos h3]
    rw [ha]
    obtain ⟨k', r', e, v', l, -⟩ := v1.write p (by rw [l1]; omega)
    rw [show min p.length sp1.length = p.length by omega] at e v'
    rw [List.take_of_length_le (by omega), List.nil_append] at v'
    refine ⟨k', { b1 with buf := r' }, _, _, ev1, one ?_, v', Nat.le_refl _, l.trans l1, lg1, r1⟩
    simp only [BufWriter.write, v.writeLen, bind, Except.bind]
    rw [if_pos (by omega), e1]
    simp only [BufWriter.writeRest, v1.writeLen, bind, Except.bind]
    rw [if_neg (by omega), e]
    rfl
  · have ha : arrive b.buf.len q p = (q ++ p, []) := by rw [arrive, if_neg h1, if_neg h2, if_neg h3]
    rw [ha]
    obtain ⟨s', es⟩ := spy_takes hW b1.inner p
    refine ⟨k, { b1 with inner := (s', b1.inner.2 ++ [.write p (.ok p.length)]), panicked := false }, n, sp1,
      ev1 ++ [.write p (.ok p.length)], one ?_, v1, by omega, l1, by simp only [lg1, List.append_assoc], ?_⟩
    · simp only [BufWriter.write, v.writeLen, bind, Except.bind]
      rw [if_pos (by omega), e1]
      simp only [BufWriter.writeRest, v1.writeLen, bind, Except.bind]
      rw [if_pos (by omega), es]
      rfl
    · rw [received_append, r1]; simp [received, WriteEvent.bytes]

theorem fmt_all (hW : TakesGiven W) (fuel rounds fuel' : Nat) : ∀ (ps : List (List Byte)) {k : Kernel}
    {b : BufWriter (τ × List WriteEvent)} {n : Nat} {q sp : List Byte} (_ : View t k b.buf n q sp)
    (_ : n + ps.flatten.length < posBound t b.buf.len),
    ∃ k' b' b'' ev, b.writeFmt W.spy t (fuel + 2) (rounds + 2) k ps = .ok (k', b', .ok ()) ∧
      b'.flush W.spy t (fuel' + 2) k' = .ok (b'', .ok ()) ∧ b''.buffered t k' = .ok [] ∧
      b''.inner.2 = b.inner.2 ++ ev ∧ received ev = arrival b.buf.len q ps := by
  intro ps
  induction ps with
  | nil =>
    intro k b n q sp v _
    obtain ⟨b1, sp1, ev1, e1, v1, l1, lg1, r1⟩ := flush_all hW v fuel'
    refine ⟨k, b, { b1 with inner := W.spy.flush b1.inner |>.1 }, ev1 ++ [.flush .ok], rfl, ?_, v1.readSlice, ?_, ?_⟩
    · rw [BufWriter.flush, e1]
      simp only [bind, Except.bind, Writer.spy, hW.flush]
      rfl
    · simp only [Writer.spy, hW.flush, lg1, List.append_assoc]
    · rw [received_append, r1]; simp [received, WriteEvent.bytes, arrival]
  | cons p ps ih =>
    intro k b n q sp v hb
    rw [List.flatten_cons, List.length_append] at hb
    obtain ⟨k1, b1, n1, sp1, ev1, e1, v1, hn, l1, lg1, r1⟩ := piece_all hW v (p := p) (by omega) fuel rounds
    obtain ⟨k2, b2, b3, ev2, e2, e3, hq, lg2, r2⟩ := ih v1 (by rw [l1]; omega)
    refine ⟨k2, b2, b3, ev1 ++ ev2, ?_, e3, hq, by rw [lg2, lg1, List.append_assoc], ?_⟩
    · rw [BufWriter.writeFmt, e1]; exact e2
    · rw [received_append, r1, r2, l1]; rfl

end
end Vmap
