import Verif.Proofs.WinBuffer
import Verif.Props.Delivered
/-
Property theorems C143, C144: buffered readers and writers in the course of a whole program on Windows.
-/
namespace Vmap
open Kernel Spec

section
variable {tab : SysTable} {t : Target} {s0 : Vmap.Win} {σ : Type}

/-- C143: a program on Windows makes a `BufReader` and then does anything, in any order: it makes, uses and
drops other maps, rings and buffers, files change, and it calls functions of the reader; the inner reader
may do anything.  Then what the calls on the reader handed out, followed by what is buffered, is exactly
what was taken from the inner reader; at most the capacity is buffered; in every memory the process can
have, the ring is in a state that C54–C57 and C83–C85 speak about, and every further call returns (no
panic, no fault) and leaves a memory in which the next one can run. -/
theorem C143_reader (wf : WinWf t s0) (laid : WinLaid t s0) {w0 w : WinWorld} (reach : WinReach tab t s0 w0)
    (R : Reader σ) (inner : σ) {capacity : Nat} (sane : 2 * (capacity + w0.s.gran) < t.lim) {s1 : Vmap.Win}
    {b0 b : BufReader (σ × List ReadEvent)} (made : BufReader.winNew t w0.s (inner, []) capacity = .ok (s1, .ok b0))
    {out : List Byte} {c : Nat} (tr : WinReads R.spy tab t w0.next (w0.put s1 (.ring b0.buf)) b0 w b out c)
    (below : (c + 1) * SeqWrite.writeCapacity b0.buf < posBound t (SeqWrite.writeCapacity b0.buf)) :
    WinReach tab t s0 w ∧ w.held w0.next = some (.ring b.buf) ∧
    (∃ q n, out ++ q = taken b.inner.2 ∧ q.length ≤ SeqWrite.writeCapacity b0.buf ∧
      n ≤ c * SeqWrite.writeCapacity b0.buf ∧
      ∀ k obj, Wf t k → WinShows w.s k obj → b.buffer t k = .ok q ∧ RingAt t k b.buf n ∧
        ∀ op, ∃ k' b' x o w', b.exec R.spy t k op = .ok ((k', b'), x, o) ∧
          WinRdCall R.spy tab t w w0.next b op x o b' w' ∧ Wf t k' ∧ WinShows w'.s k' obj) ∧
    ∃ k obj, Wf t k ∧ WinShows w.s k obj := by
  obtain ⟨r, hr, hb⟩ : ∃ r, w0.s.ringNew t capacity = .ok (s1, .ok r) ∧ b0 = ⟨r, (inner, []), 0⟩ := by
    simp only [BufReader.winNew, bind, Except.bind] at made
    split at made
    · cases made
    · rename_i x hx
      split at made <;> cases made
      exact ⟨_, hx, rfl⟩
  subst hb
  obtain ⟨h1, h2⟩ := win_made_ring wf laid reach sane hr
  simp only [Nat.add_mul, Nat.one_mul] at below
  obtain ⟨f1, f2, q, sp, n, f3, f4, f5⟩ := WinReads.inv wf laid R h1 (by simp [WinWorld.put]) h2 rfl tr (by omega)
  refine ⟨f1, f2, ⟨q, n, f5, ?_, f4, fun k obj kw sh => ?_⟩, WinLaid.shows (f1.inv wf laid).laid⟩
  · obtain ⟨k, obj, kw, sh⟩ := WinLaid.shows (f1.inv wf laid).laid
    obtain ⟨v, hl⟩ := f3.view wf laid f1 f2 kw sh
    have := v.len
    simp only at this
    show q.length ≤ SeqWrite.writeCapacity r
    rw [← hl]
    omega
  · obtain ⟨v, hl⟩ := f3.view wf laid f1 f2 kw sh
    exact ⟨v.readSlice, v.at_, fun op => f3.rdCall wf laid R f1 f2 (by simp only; omega) kw sh op⟩

/-- C144: the same for a `BufWriter`: what the inner writer has received, together with what is buffered, are
the bytes accepted (in their order, if no write exactly filled the free space, see C58). -/
theorem C144_writer (wf : WinWf t s0) (laid : WinLaid t s0) {w0 w : WinWorld} (reach : WinReach tab t s0 w0)
    (W : Writer σ) (fuel : Nat) (inner : σ) {capacity : Nat} (sane : 2 * (capacity + w0.s.gran) < t.lim) {s1 : Vmap.Win}
    {b0 b : BufWriter (σ × List WriteEvent)} (made : BufWriter.winNew t w0.s (inner, []) capacity = .ok (s1, .ok b0))
    {acc : List Byte} {c : Nat} {fits : Prop}
    (tr : WinWrites W.spy fuel tab t w0.next (w0.put s1 (.ring b0.buf)) b0 w b acc c fits)
    (below : (c + 1) * SeqWrite.writeCapacity b0.buf < posBound t (SeqWrite.writeCapacity b0.buf)) :
    WinReach tab t s0 w ∧ w.held w0.next = some (.ring b.buf) ∧
    (∃ q n, (received b.inner.2 ++ q).Perm acc ∧ (¬ fits → received b.inner.2 ++ q = acc) ∧
      q.length ≤ SeqWrite.writeCapacity b0.buf ∧ n ≤ c * SeqWrite.writeCapacity b0.buf ∧
      ∀ k obj, Wf t k → WinShows w.s k obj → b.buffered t k = .ok q ∧ RingAt t k b.buf n ∧
        ∀ op, ∃ k' b' x w', b.exec W.spy t fuel k op = .ok ((k', b'), x) ∧
          WinWrCall W.spy fuel tab t w w0.next b op x b' w' ∧ Wf t k' ∧ WinShows w'.s k' obj) ∧
    ∃ k obj, Wf t k ∧ WinShows w.s k obj := by
  obtain ⟨r, hr, hb⟩ : ∃ r, w0.s.ringNew t capacity = .ok (s1, .ok r) ∧ b0 = ⟨r, (inner, []), false⟩ := by
    simp only [BufWriter.winNew, bind, Except.bind] at made
    split at made
    · cases made
    · rename_i x hx
      split at made <;> cases made
      exact ⟨_, hx, rfl⟩
  subst hb
  obtain ⟨h1, h2⟩ := win_made_ring wf laid reach sane hr
  simp only [Nat.add_mul, Nat.one_mul] at below
  obtain ⟨f1, f2, -, q, sp, n, f3, f4, f5, f6⟩ := WinWrites.inv wf laid W fuel h1 (by simp [WinWorld.put]) h2 rfl rfl tr
    (by omega)
  refine ⟨f1, f2, ⟨q, n, f5, f6, ?_, f4, fun k obj kw sh => ?_⟩, WinLaid.shows (f1.inv wf laid).laid⟩
  · obtain ⟨k, obj, kw, sh⟩ := WinLaid.shows (f1.inv wf laid).laid
    obtain ⟨v, hl⟩ := f3.view wf laid f1 f2 kw sh
    have := v.len
    simp only at this
    show q.length ≤ SeqWrite.writeCapacity r
    rw [← hl]
    omega
  · obtain ⟨v, hl⟩ := f3.view wf laid f1 f2 kw sh
    exact ⟨v.readSlice, v.at_, fun op => f3.wrCall wf laid W fuel f1 f2 (by simp only; omega) kw sh op⟩

/-- C144, the drop: after any such history the writer can be dropped (the last flush may take any number of
rounds); then the inner writer has received what was accepted, each byte once, up to what is lost; bytes
are lost only if the last answer of the inner writer was a panic, an error, or zero bytes taken; and the
state is one of a program that holds no such ring any more. -/
theorem C144_drop (wf : WinWf t s0) (laid : WinLaid t s0) {w0 w : WinWorld} (reach : WinReach tab t s0 w0)
    (W : Writer σ) (fuel : Nat) (inner : σ) {capacity : Nat} (sane : 2 * (capacity + w0.s.gran) < t.lim) {s1 : Vmap.Win}
    {b0 b : BufWriter (σ × List WriteEvent)} (made : BufWriter.winNew t w0.s (inner, []) capacity = .ok (s1, .ok b0))
    {acc : List Byte} {c : Nat} {fits : Prop}
    (tr : WinWrites W.spy fuel tab t w0.next (w0.put s1 (.ring b0.buf)) b0 w b acc c fits)
    (below : c * SeqWrite.writeCapacity b0.buf < posBound t (SeqWrite.writeCapacity b0.buf)) :
    (∀ k obj, Wf t k → WinShows w.s k obj → ∃ end' x, b.lastFlush W.spy t fuel k = .ok (end', x) ∧
      (x ≠ .pending → ∃ w', WinWrDrop W.spy fuel tab t w w0.next b end' x w')) ∧
    ∀ end' x w', WinWrDrop W.spy fuel tab t w w0.next b end' x w' →
      WinReach tab t s0 w' ∧ w'.held w0.next = none ∧
      ∃ lost, (received end'.2 ++ lost).Perm acc ∧ (¬ fits → received end'.2 ++ lost = acc) ∧
        (lost ≠ [] → ∃ r, lastWrite end'.2 = some r ∧ Refusal r) := by
  obtain ⟨r, hr, hb⟩ : ∃ r, w0.s.ringNew t capacity = .ok (s1, .ok r) ∧ b0 = ⟨r, (inner, []), false⟩ := by
    simp only [BufWriter.winNew, bind, Except.bind] at made
    split at made
    · cases made
    · rename_i x hx
      split at made <;> cases made
      exact ⟨_, hx, rfl⟩
  subst hb
  obtain ⟨h1, h2⟩ := win_made_ring wf laid reach sane hr
  obtain ⟨f1, f2, pk, q, sp, n, f3, f4, f5, f6⟩ := WinWrites.inv wf laid W fuel h1 (by simp [WinWorld.put]) h2 rfl rfl tr
    below
  have dr : ∃ s', w.step tab t (.drop w0.next) = .ok (w.upd s' w0.next none) := by
    simp only [WinWorld.step, f2, pure, Except.pure]
    exact ⟨_, rfl⟩
  obtain ⟨s', dr⟩ := dr
  constructor
  · intro k obj kw sh
    obtain ⟨v, hl⟩ := f3.view wf laid f1 f2 kw sh
    obtain ⟨e, x, ev, h, -⟩ := lastFlush_view W v fuel
    exact ⟨e, x, h, fun hx => ⟨_, k, obj, f2, kw, sh, h, hx, dr⟩⟩
  · intro e x w' hd
    obtain ⟨k, obj, -, kw, sh, h, hx, st⟩ := hd
    obtain ⟨v, hl⟩ := f3.view wf laid f1 f2 kw sh
    obtain ⟨e1, x1, ev, h1, lg, pan, nopan⟩ := lastFlush_view W v fuel
    rw [h] at h1
    simp only [Except.ok.injEq, Prod.mk.injEq] at h1
    obtain ⟨rfl, rfl⟩ := h1
    refine ⟨.step (op := .drop w0.next) f1 trivial st, ?_, ?_⟩
    · rw [dr] at st
      injection st with st
      rw [← st]
      simp [WinWorld.upd]
    cases hb : b.panicked with
    | true =>
      obtain ⟨hev, hx⟩ := pan hb
      rw [hev, List.append_nil] at lg
      refine ⟨q, by rw [lg]; exact f5, by rw [lg]; exact f6, fun _ => ⟨.panic, ?_, .inl rfl⟩⟩
      rw [lg]; exact pk.mp hb
    | false =>
      obtain ⟨q', y, fl, hy⟩ := nopan hb
      have hs := fl.split
      simp only at hs
      refine ⟨q', ?_, ?_, ?_⟩
      · rw [lg, received_append, List.append_assoc, ← hs]; exact f5
      · rw [lg, received_append, List.append_assoc, ← hs]; exact f6
      · intro hq
        cases fl with
        | done all => exact absurd rfl hq
        | running part all => exact absurd hy hx
        | stopped r part left why =>
          refine ⟨r, ?_, ?_⟩
          · rw [lg, ← List.append_assoc, lastWrite_write]
          · cases r with
            | ok n => exact .inr (.inl (by rw [why.1]))
            | err e => exact .inr (.inr ⟨e, rfl, why.1⟩)
            | panic => exact .inl rfl

end

/-- A ring on the example system. -/
theorem winDemo_ring : ∃ s1 r0, (winDemo []).ringNew ⟨.w64, true⟩ 5000 = .ok (s1, .ok r0) ∧
    SeqWrite.writeCapacity r0 = 65536 := by
  have h : ((winDemo []).ringNew ⟨.w64, true⟩ 5000).map (·.2) = .ok (.ok ⟨68157440, 65536, 0, 0⟩) := by decide +kernel
  cases hx : (winDemo []).ringNew ⟨.w64, true⟩ 5000 with
  | error f => rw [hx] at h; cases h
  | ok x =>
    rw [hx] at h
    injection h with h
    exact ⟨x.1, ⟨68157440, 65536, 0, 0⟩, by rw [← h], rfl⟩

/-- Non-vacuity: a program makes a `BufReader`, fills its buffer, another process changes the files, and it
reads; then the hypotheses of `C143_reader` hold. -/
example : WinWf ⟨.w64, true⟩ (winDemo []) ∧ WinLaid ⟨.w64, true⟩ (winDemo []) ∧
    ∃ (s1 : Vmap.Win) (b0 b : BufReader (Nat × List ReadEvent)) (w : WinWorld) (out : List Byte),
    BufReader.winNew ⟨.w64, true⟩ (winDemo []) (0, []) 5000 = .ok (s1, .ok b0) ∧
    WinReads countReader.spy winTab ⟨.w64, true⟩ 0 ((WinWorld.start (winDemo [])).put s1 (.ring b0.buf)) b0 w b out 2 ∧
    3 * SeqWrite.writeCapacity b0.buf < posBound ⟨.w64, true⟩ (SeqWrite.writeCapacity b0.buf) ∧
    out.length + SeqWrite.writeCapacity b0.buf ≥ (taken b.inner.2).length := by
  refine ⟨winDemo_wf [], winDemo_laid [], ?_⟩
  obtain ⟨s1, r0, made, hc⟩ := winDemo_ring
  have mb : BufReader.winNew ⟨.w64, true⟩ (winDemo []) ((0, []) : Nat × List ReadEvent) 5000 =
      .ok (s1, .ok ⟨r0, (0, []), 0⟩) := by
    simp only [BufReader.winNew, made, bind, Except.bind]; rfl
  have bound : ∀ c, c ≤ 3 → c * SeqWrite.writeCapacity r0 < posBound ⟨.w64, true⟩ (SeqWrite.writeCapacity r0) := by
    intro c h
    have : posBound ⟨.w64, true⟩ 65536 = 18446744073709551616 := by decide
    rw [hc, this]; omega
  have key := fun {w b out c} => C143_reader (tab := winTab) (w := w) (b := b) (out := out) (c := c) (winDemo_wf [])
    (winDemo_laid []) .start countReader 0 (by decide) mb
  have t0 : WinReads countReader.spy winTab ⟨.w64, true⟩ 0 ((WinWorld.start (winDemo [])).put s1 (.ring r0))
    ⟨r0, (0, []), 0⟩ _ _ _ _ := .made
  obtain ⟨-, -, ⟨q, n, -, -, -, h⟩, k, obj, kw, sh⟩ := key t0 (bound _ (by omega))
  obtain ⟨-, b1, x1, o1, w1, -, call, -⟩ := (h k obj kw sh).2.2 .fillBuf
  have t1 := t0.call call
  obtain ⟨w2, st⟩ : ∃ w2, w1.step winTab ⟨.w64, true⟩ (.files w1.s.files (fun _ _ => 7)) = .ok w2 := ⟨_, rfl⟩
  have t2 := t1.other (op := .files w1.s.files (fun _ _ => 7)) trivial st (fun _ _ _ h => by cases h) (fun h => by cases h)
  obtain ⟨-, -, ⟨q, n, -, -, -, h⟩, k, obj, kw, sh⟩ := key t2 (bound _ (by omega))
  obtain ⟨-, b2, x2, o2, w3, -, call, -⟩ := (h k obj kw sh).2.2 (.read [0, 0])
  have t3 := t2.call call
  obtain ⟨-, -, ⟨q, n, e, hq, -⟩, -⟩ := key t3 (bound _ (by omega))
  refine ⟨s1, _, b2, w3, _, mb, t3, bound _ (by omega), ?_⟩
  rw [← e]
  simp only [List.length_append] at hq ⊢
  omega

/-- Non-vacuity: a program makes a `BufWriter`, writes three bytes, another process changes the files, and it
drops the writer; then the inner writer has the three bytes. -/
example : WinWf ⟨.w64, true⟩ (winDemo []) ∧ WinLaid ⟨.w64, true⟩ (winDemo []) ∧
    ∃ (s1 : Vmap.Win) (b0 b : BufWriter (Unit × List WriteEvent)) (w w' : WinWorld) (fits : Prop)
    (last : Unit × List WriteEvent),
    BufWriter.winNew ⟨.w64, true⟩ (winDemo []) ((), []) 5000 = .ok (s1, .ok b0) ∧
    WinWrites sinkWriter.spy 2 winTab ⟨.w64, true⟩ 0 ((WinWorld.start (winDemo [])).put s1 (.ring b0.buf)) b0 w b
      [1, 2, 3] 1 fits ∧
    WinWrDrop sinkWriter.spy 2 winTab ⟨.w64, true⟩ w 0 b last (.ok ()) w' ∧ received last.2 = [1, 2, 3] := by
  refine ⟨winDemo_wf [], winDemo_laid [], ?_⟩
  obtain ⟨s1, r0, made, hc⟩ := winDemo_ring
  have mb : BufWriter.winNew ⟨.w64, true⟩ (winDemo []) (((), []) : Unit × List WriteEvent) 5000 =
      .ok (s1, .ok ⟨r0, ((), []), false⟩) := by
    simp only [BufWriter.winNew, made, bind, Except.bind]; rfl
  have hlen : r0.len = 65536 := hc
  have bound : ∀ c, c ≤ 3 → c * SeqWrite.writeCapacity r0 < posBound ⟨.w64, true⟩ (SeqWrite.writeCapacity r0) := by
    intro c h
    have : posBound ⟨.w64, true⟩ 65536 = 18446744073709551616 := by decide
    rw [hc, this]; omega
  obtain ⟨g1, g2⟩ := win_made_ring (tab := winTab) (winDemo_wf []) (winDemo_laid []) .start (by decide) made
  obtain ⟨k, obj, kw, sh⟩ := WinLaid.shows (g1.inv (winDemo_wf []) (winDemo_laid [])).laid
  have held : ((WinWorld.start (winDemo [])).put s1 (.ring r0)).held 0 = some (.ring r0) := rfl
  obtain ⟨v, -⟩ := g2.view (winDemo_wf []) (winDemo_laid []) g1 held kw sh
  have below : 0 + r0.len < posBound ⟨.w64, true⟩ r0.len := by have := bound 1 (by omega); rw [Nat.one_mul] at this; rw [Nat.zero_add]; exact this
  obtain ⟨k1, b1, x1, e1, l1, -, c1⟩ := writeRest_view sinkWriter (b := ⟨r0, ((), []), false⟩) v below [1, 2, 3]
  rcases c1 with ⟨big, -⟩ | ⟨-, hx1, hin1, hp1, n1, sp1, hn1, v1⟩
  · simp only [hlen] at big; simp at big
  subst hx1
  have hvl := v.len
  have w1 : BufWriter.write sinkWriter.spy ⟨.w64, true⟩ 2 k ⟨r0, ((), []), false⟩ [1, 2, 3] = .ok (k1, b1, .ok 3) := by
    simp only [BufWriter.write, v.writeLen, bind, Except.bind]
    rw [if_neg (by simp only [List.length_cons, List.length_nil] at hvl ⊢; omega), e1]
    rfl
  have ex : BufWriter.exec sinkWriter.spy ⟨.w64, true⟩ 2 k ⟨r0, ((), []), false⟩ (.write [1, 2, 3]) =
      .ok ((k1, b1), .ok 3) := by
    simp only [BufWriter.exec, w1, bind, Except.bind, pure, Except.pure]
  obtain ⟨wa, ⟨u, hu, hb⟩, st, f1, f2, f3, f4, f5⟩ := g2.used (winDemo_wf []) (winDemo_laid []) g1 held kw sh (c := 1)
    (by rw [Nat.one_mul]; have := bound 1 (by omega); rw [Nat.one_mul] at this; simpa using this) (wr_exec_uses ex) v1
  have call : WinWrCall sinkWriter.spy 2 winTab ⟨.w64, true⟩ ((WinWorld.start (winDemo [])).put s1 (.ring r0)) 0
      ⟨r0, ((), []), false⟩ (.write [1, 2, 3]) (.ok 3) b1 wa :=
    ⟨u, k, obj, k1, rfl, hu, hb, kw, sh, ex, st u hu hb⟩
  have t1 := (WinWrites.made (W := sinkWriter.spy) (fuel := 2) (tab := winTab) (t := ⟨.w64, true⟩) (i := 0)).call call
  obtain ⟨w2, st2⟩ : ∃ w2, wa.step winTab ⟨.w64, true⟩ (.files wa.s.files (fun _ _ => 7)) = .ok w2 := ⟨_, rfl⟩
  have t2 := t1.other (op := .files wa.s.files (fun _ _ => 7)) trivial st2 (fun _ _ _ h => by cases h)
    (fun h => by cases h)
  obtain ⟨d1, d2⟩ := C144_drop (winDemo_wf []) (winDemo_laid []) .start sinkWriter 2 () (by decide) mb t2 (bound _ (by omega))
  obtain ⟨i1, i2, i3⟩ := f3.other (winDemo_wf []) (winDemo_laid []) f1 f2 (op := .files wa.s.files (fun _ _ => 7)) trivial
    st2 (fun _ _ _ h => by cases h) (fun h => by cases h)
  obtain ⟨k2, obj2, kw2, sh2⟩ := WinLaid.shows (i1.inv (winDemo_wf []) (winDemo_laid [])).laid
  obtain ⟨v2, -⟩ := i2.view (winDemo_wf []) (winDemo_laid []) i1 i3 kw2 sh2
  have lf : b1.lastFlush sinkWriter.spy ⟨.w64, true⟩ 2 k2 = .ok (((), [.write [1, 2, 3] (.ok 3)]), .ok ()) := by
    obtain ⟨r2, e2, v3, -⟩ := v2.consume 3
    have e0 := v2.isEmpty_eq
    have e3 := v2.readSlice
    have e4 := v3.isEmpty_eq
    simp only [List.nil_append] at e0 e3
    simp only [BufWriter.lastFlush, hp1, BufWriter.flushBuf, e0, BufWriter.buffered, e3, hin1, bind, Except.bind]
    simp only [sinkWriter, Writer.spy, List.length_cons, List.length_nil, e2, e4, pure, Except.pure]
    rfl
  obtain ⟨end', x, h, hd⟩ := d1 k2 obj2 kw2 sh2
  rw [lf] at h
  simp only [Except.ok.injEq, Prod.mk.injEq] at h
  obtain ⟨rfl, rfl⟩ := h
  obtain ⟨w', hd⟩ := hd (by simp)
  exact ⟨s1, _, b1, w2, w', _, _, mb, t2, hd, rfl⟩

end Vmap
