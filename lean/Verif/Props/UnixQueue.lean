import Verif.Proofs.UnixQueue
import Verif.Props.BufWorld
import Verif.Props.Delivered
import Verif.Props.Darwin
/-
Property theorems C151–C153: rings, buffered readers and buffered writers in the course of a whole program
on Unix (macOS included).
-/
namespace Vmap
open Kernel Spec

section
variable {tab : SysTable} {t : Target} {k0 : Kernel} {σ : Type}

/-- C151: a program on Unix makes a ring, and then does anything, in any order: it makes, uses and drops
other maps and rings, files change and are written to storage, and it calls functions of the ring.  As
long as it has not dropped the ring, the ring's readable bytes and write slice are those of the queue, and
every call on it returns (no panic, no fault) and answers as the queue does. -/
theorem C151_ring (wf : Wf t k0) {w0 w : World} (reach : Reach tab t k0 w0) {hint : Nat} (fits : RingFits t w0.k hint)
    {k1 : Kernel} {r0 : Ring} (made : Ring.make t w0.k hint = .ok (k1, .ok r0)) {s : Spec.Win}
    (tr : Queued tab t w0.next (SeqWrite.writeCapacity r0) (w0.put k1 (.ring r0 0)) w s) :
    Reach tab t k0 w ∧ ∃ r, w.held w0.next = some (.ring r s.total) ∧
      SeqWrite.writeCapacity r = SeqWrite.writeCapacity r0 ∧ r.fillBuf t w.k = .ok s.q ∧
      writeSliceBytes t w.k r t.usizeMax = .ok s.spare ∧
      s.q.length + s.spare.length = SeqWrite.writeCapacity r0 ∧
      ∀ op, (s.step op).1.total < posBound t (SeqWrite.writeCapacity r0) →
        ∃ k' r' w', r.exec t w.k op = .ok ((k', r'), (s.step op).2) ∧
          w.step tab t (.ringOp w0.next op) = .ok w' ∧ w'.k = k' ∧
          w'.held w0.next = some (.ring r' (s.step op).1.total) := by
  obtain ⟨hr, start⟩ := made_ring wf reach fits made
  obtain ⟨h1, h2⟩ := Queued.holds wf hr start tr
  obtain ⟨r, o, hi, hl, rep⟩ := id h2
  obtain ⟨v, -, -⟩ := h2.view wf h1 hi
  refine ⟨h1, r, hi, hl, v.fillBuf, v.writeSlice, v.len.trans hl, fun op below => ?_⟩
  obtain ⟨k', r', w', e, st, a, b, -⟩ := h2.call (tab := tab) h1 below hi
  exact ⟨k', r', w', e, st, a, b⟩

/-- C151 for an infinite ring (`write_all` included). -/
theorem C151_infinite (wf : Wf t k0) {w0 w : World} (reach : Reach tab t k0 w0) {hint : Nat}
    (fits : RingFits t w0.k hint) {k1 : Kernel} {r0 : InfiniteRing}
    (made : InfiniteRing.make t w0.k hint = .ok (k1, .ok r0)) {s : Lossy}
    (tr : Retained tab t w0.next (SeqWrite.writeCapacity r0) (w0.put k1 (.inf r0 0)) w s) :
    Reach tab t k0 w ∧ ∃ r, w.held w0.next = some (.inf r s.total) ∧
      SeqWrite.writeCapacity r = SeqWrite.writeCapacity r0 ∧ r.fillBuf t w.k = .ok s.q ∧
      writeSliceBytes t w.k r t.usizeMax = .ok (s.old ++ s.q) ∧
      (s.old ++ s.q).length = SeqWrite.writeCapacity r0 ∧
      (∀ op, (s.step op).1.total < posBound t (SeqWrite.writeCapacity r0) → op ≠ .clear →
        FeedOk (SeqWrite.writeCapacity r0) op →
        ∃ k' r' w', r.exec t w.k op = .ok ((k', r'), (s.step op).2) ∧
          w.step tab t (.infOp w0.next op) = .ok w' ∧ w'.k = k' ∧
          w'.held w0.next = some (.inf r' (s.step op).1.total)) ∧
      ∀ bs, s.total + min bs.length (SeqWrite.writeCapacity r0) < posBound t (SeqWrite.writeCapacity r0) →
        ∃ k' r' w', r.writeAll t w.k bs = .ok (k', r') ∧ w.step tab t (.infAll w0.next bs) = .ok w' ∧
          w'.k = k' ∧ w'.held w0.next = some (.inf r' (s.total + min bs.length (SeqWrite.writeCapacity r0))) := by
  obtain ⟨hr, start⟩ := made_inf wf reach fits made
  obtain ⟨h1, h2⟩ := Retained.holds wf hr start tr
  obtain ⟨r, o, hi, hl, rep⟩ := id h2
  refine ⟨h1, r, hi, hl, rep.fillBuf_eq, rep.writeSlice_all, rep.all_len.trans hl, fun op below nc feed => ?_,
    fun bs below => ?_⟩
  · obtain ⟨k', r', w', e, st, a, b, -⟩ := h2.call (tab := tab) h1 below nc feed hi
    exact ⟨k', r', w', e, st, a, b⟩
  · obtain ⟨k', r', w', e, st, a, b, -⟩ := h2.writeAll (tab := tab) h1 below hi
    exact ⟨k', r', w', e, st, a, b⟩

/-- What `BufReader::new` and `BufWriter::new` make. -/
theorem reader_ring {k k1 : Kernel} {inner : σ} {capacity : Nat} {b : BufReader σ}
    (made : BufReader.new t k inner capacity = .ok (k1, .ok b)) :
    Ring.make t k capacity = .ok (k1, .ok b.buf) ∧ b.inner = inner := by
  unfold BufReader.new at made
  obtain ⟨⟨k', r⟩, e1, e⟩ := bind_ok made
  cases r with
  | error err => cases e
  | ok r =>
    injection e with e; injection e with e2 e3; injection e3 with e3
    subst e2 e3
    exact ⟨e1, rfl⟩

theorem writer_ring {k k1 : Kernel} {inner : σ} {capacity : Nat} {b : BufWriter σ}
    (made : BufWriter.new t k inner capacity = .ok (k1, .ok b)) :
    Ring.make t k capacity = .ok (k1, .ok b.buf) ∧ b.inner = inner ∧ b.panicked = false := by
  unfold BufWriter.new at made
  obtain ⟨⟨k', r⟩, e1, e⟩ := bind_ok made
  cases r with
  | error err => cases e
  | ok r =>
    injection e with e; injection e with e2 e3; injection e3 with e3
    subst e2 e3
    exact ⟨e1, rfl, rfl⟩

/-- C152: a program on Unix makes a `BufReader` and then does anything, in any order: it makes, uses and
drops other maps, rings and buffers, files change, and it calls functions of the reader; the inner reader
may do anything.  Then what the calls on the reader handed out, followed by what is buffered, is exactly
what was taken from the inner reader; at most the capacity is buffered; the ring is in a state that
C54–C57 and C83–C85 speak about; and every further call returns (no panic, no fault) and changes nothing
but the ring's own memory. -/
theorem C152_reader (wf : Wf t k0) {w0 w : World} (reach : Reach tab t k0 w0) (R : Reader σ) (inner : σ)
    {capacity : Nat} (fits : RingFits t w0.k capacity) {k1 : Kernel} {b0 b : BufReader (σ × List ReadEvent)}
    (made : BufReader.new t w0.k (inner, []) capacity = .ok (k1, .ok b0)) {out : List Byte} {c : Nat}
    (tr : Reads R.spy tab t w0.next (w0.put k1 (.ring b0.buf 0)) b0 w b out c)
    (below : (c + 1) * SeqWrite.writeCapacity b0.buf < posBound t (SeqWrite.writeCapacity b0.buf)) :
    Reach tab t k0 w ∧ ∃ q n, w.held w0.next = some (.ring b.buf n) ∧ out ++ q = taken b.inner.2 ∧
      q.length ≤ SeqWrite.writeCapacity b0.buf ∧ n ≤ c * SeqWrite.writeCapacity b0.buf ∧
      b.buffer t w.k = .ok q ∧ RingAt t w.k b.buf n ∧
      ∀ op, ∃ b' x o w', RdCall R.spy t w w0.next b op x o b' w' ∧ OnlyHandle w w'.k w0.next := by
  obtain ⟨hr, hin⟩ := reader_ring made
  obtain ⟨h1, h2⟩ := made_ring wf reach fits hr
  simp only [SeqWrite.writeCapacity, Nat.add_mul, Nat.one_mul] at below ⊢
  obtain ⟨f1, q, sp, n, f2, f3, f4, f5⟩ := Reads.inv wf R h1 (n0 := 0) (by simp [World.put]) h2 (by rw [hin]) tr (by omega)
  obtain ⟨v, hl, -⟩ := f3.view wf f1 f2
  have := v.len
  simp only at this v
  exact ⟨f1, q, n, f2, f5, by omega, f4, v.readSlice, v.at_, fun op => f3.rdCall wf R f1 f2 (by simp only; omega) op⟩

/-- C153: the same for a `BufWriter`: what the inner writer has received, together with what is buffered, are
the bytes accepted (in their order, if no write exactly filled the free space, see C58). -/
theorem C153_writer (wf : Wf t k0) {w0 w : World} (reach : Reach tab t k0 w0) (W : Writer σ) (fuel : Nat) (inner : σ)
    {capacity : Nat} (fits : RingFits t w0.k capacity) {k1 : Kernel} {b0 b : BufWriter (σ × List WriteEvent)}
    (made : BufWriter.new t w0.k (inner, []) capacity = .ok (k1, .ok b0)) {acc : List Byte} {c : Nat} {exact_ : Prop}
    (tr : Writes W.spy fuel tab t w0.next (w0.put k1 (.ring b0.buf 0)) b0 w b acc c exact_)
    (below : (c + 1) * SeqWrite.writeCapacity b0.buf < posBound t (SeqWrite.writeCapacity b0.buf)) :
    Reach tab t k0 w ∧ ∃ q n, w.held w0.next = some (.ring b.buf n) ∧ (received b.inner.2 ++ q).Perm acc ∧
      (¬ exact_ → received b.inner.2 ++ q = acc) ∧ q.length ≤ SeqWrite.writeCapacity b0.buf ∧
      n ≤ c * SeqWrite.writeCapacity b0.buf ∧ b.buffered t w.k = .ok q ∧ RingAt t w.k b.buf n ∧
      ∀ op, ∃ b' x w', WrCall W.spy fuel t w w0.next b op x b' w' ∧ OnlyHandle w w'.k w0.next := by
  obtain ⟨hr, hin, hp⟩ := writer_ring made
  obtain ⟨h1, h2⟩ := made_ring wf reach fits hr
  simp only [SeqWrite.writeCapacity, Nat.add_mul, Nat.one_mul] at below ⊢
  obtain ⟨f1, -, q, sp, n, f2, f3, f4, f5, f6⟩ := Writes.inv wf W fuel h1 (n0 := 0) (by simp [World.put]) h2
    (by rw [hin]) hp tr (by omega)
  obtain ⟨v, hl, -⟩ := f3.view wf f1 f2
  have := v.len
  simp only at this v
  exact ⟨f1, q, n, f2, f5, f6, by omega, f4, v.readSlice, v.at_,
    fun op => f3.wrCall wf W fuel f1 f2 (by simp only; omega) op⟩

/-- C153, the drop: after any such history the writer can be dropped (the last flush may take any number of
rounds); then the inner writer has received what was accepted, each byte once, up to what is lost; bytes
are lost only if the last answer of the inner writer was a panic, an error, or zero bytes taken; and the
state is one of a program that holds no such ring any more. -/
theorem C153_drop (wf : Wf t k0) {w0 w : World} (reach : Reach tab t k0 w0) (W : Writer σ) (fuel : Nat) (inner : σ)
    {capacity : Nat} (fits : RingFits t w0.k capacity) {k1 : Kernel} {b0 b : BufWriter (σ × List WriteEvent)}
    (made : BufWriter.new t w0.k (inner, []) capacity = .ok (k1, .ok b0)) {acc : List Byte} {c : Nat} {exact_ : Prop}
    (tr : Writes W.spy fuel tab t w0.next (w0.put k1 (.ring b0.buf 0)) b0 w b acc c exact_)
    (below : c * SeqWrite.writeCapacity b0.buf < posBound t (SeqWrite.writeCapacity b0.buf)) :
    ∃ k' end' x, b.drop W.spy t fuel w.k = .ok (k', end', x) ∧
      (x ≠ .pending → Reach tab t k0 (w.upd k' w0.next none) ∧
        ∃ lost, (received end'.2 ++ lost).Perm acc ∧ (¬ exact_ → received end'.2 ++ lost = acc) ∧
          (lost ≠ [] → ∃ r, lastWrite end'.2 = some r ∧ Refusal r)) := by
  obtain ⟨hr, hin, hp⟩ := writer_ring made
  obtain ⟨h1, h2⟩ := made_ring wf reach fits hr
  simp only [SeqWrite.writeCapacity] at below
  obtain ⟨f1, pk, q, sp, n, f2, f3, f4, f5, f6⟩ := Writes.inv wf W fuel h1 (n0 := 0) (by simp [World.put]) h2
    (by rw [hin]) hp tr below
  obtain ⟨v, hl, -⟩ := f3.view wf f1 f2
  simp only at v
  obtain ⟨k', e, x, ev, run, lg, -, pan, nopan⟩ := C64_drop W t fuel w.k b n v.at_ q v.readSlice
  refine ⟨k', e, x, run, fun hx => ⟨C93_writer_drop wf f1 W.spy fuel f2 v.below run hx, ?_⟩⟩
  cases hb : b.panicked with
  | true =>
    obtain ⟨hev, hx⟩ := pan hb
    rw [hev, List.append_nil] at lg
    refine ⟨q, by rw [lg]; exact f5, by rw [lg]; exact f6, fun _ => ⟨.panic, ?_, .inl rfl⟩⟩
    rw [lg]; exact pk.mp hb
  | false =>
    obtain ⟨q', y, fl, hy⟩ := nopan hb
    have hs := fl.split
    refine ⟨q', ?_, ?_, ?_⟩
    · rw [lg, received_append, List.append_assoc, ← hs]; exact f5
    · rw [lg, received_append, List.append_assoc, ← hs]; exact f6
    · intro hq
      cases fl with
      | done all => exact absurd rfl hq
      | running part all => exact absurd hy hx
      | stopped r part left why =>
        refine ⟨r, ?_, ?_⟩
        · rw [lg, ← List.append_assoc, lastWrite_write]
        · cases r with
          | ok n => exact .inr (.inl (by rw [why.1]))
          | err e => exact .inr (.inr ⟨e, rfl, why.1⟩)
          | panic => exact .inl rfl

/-- C153, `into_inner`: after any such history, `into_inner` returns the writer only if it has received
everything that was accepted; the state is then one of a program that holds no such ring any more.  If it
fails, what the inner writer has received, together with what the writer inside the error has buffered
(which is not empty), are the bytes accepted. -/
theorem C153_into_inner (wf : Wf t k0) {w0 w : World} (reach : Reach tab t k0 w0) (W : Writer σ) (fuel : Nat) (inner : σ)
    {capacity : Nat} (fits : RingFits t w0.k capacity) {k1 : Kernel} {b0 b : BufWriter (σ × List WriteEvent)}
    (made : BufWriter.new t w0.k (inner, []) capacity = .ok (k1, .ok b0)) {acc : List Byte} {c : Nat} {exact_ : Prop}
    (tr : Writes W.spy fuel tab t w0.next (w0.put k1 (.ring b0.buf 0)) b0 w b acc c exact_)
    (below : c * SeqWrite.writeCapacity b0.buf < posBound t (SeqWrite.writeCapacity b0.buf)) :
    (∃ k' res, b.intoInner W.spy t fuel w.k = .ok (k', res)) ∧
    (∀ k' end', b.intoInner W.spy t fuel w.k = .ok (k', .ok end') →
      Reach tab t k0 (w.upd k' w0.next none) ∧ (received end'.2).Perm acc ∧ (¬ exact_ → received end'.2 = acc)) ∧
    (∀ k' b' e, b.intoInner W.spy t fuel w.k = .ok (k', .err b' e) →
      ∃ rest n, rest ≠ [] ∧ b'.buffered t k' = .ok rest ∧ (received b'.inner.2 ++ rest).Perm acc ∧
        (¬ exact_ → received b'.inner.2 ++ rest = acc) ∧
        Reach tab t k0 (w.upd k' w0.next (some (.ring b'.buf n))) ∧ e.kind ≠ .interrupted) := by
  obtain ⟨hr, hin, hp⟩ := writer_ring made
  obtain ⟨h1, h2⟩ := made_ring wf reach fits hr
  simp only [SeqWrite.writeCapacity] at below
  obtain ⟨f1, pk, q, sp, n, f2, f3, f4, f5, f6⟩ := Writes.inv wf W fuel h1 (n0 := 0) (by simp [World.put]) h2
    (by rw [hin]) hp tr below
  obtain ⟨v, hl, -⟩ := f3.view wf f1 f2
  simp only at v
  obtain ⟨k', res, run, hres⟩ := C63_into_inner W t fuel w.k b n v.at_ q v.readSlice
  refine ⟨⟨k', res, run⟩, ?_, ?_⟩
  · intro k2 end' run2
    rw [run] at run2
    simp only [Except.ok.injEq, Prod.mk.injEq] at run2
    obtain ⟨rfl, rfl⟩ := run2
    obtain ⟨g1, -⟩ := hres
    exact ⟨(C93_writer_into_inner wf f1 W.spy fuel f2 v.below).1 _ (.inl run), by rw [g1]; exact f5,
      fun h => by rw [g1]; exact f6 h⟩
  · intro k2 b2 e run2
    obtain ⟨n', hreach, -⟩ := (C93_writer_into_inner wf f1 W.spy fuel f2 v.below).2 _ _ run2
    rw [run] at run2
    simp only [Except.ok.injEq, Prod.mk.injEq] at run2
    obtain ⟨rfl, rfl⟩ := run2
    obtain ⟨rfl, -, sent, rest, g1, g2, g3, g4, -, g5⟩ := hres
    refine ⟨rest, n', g1, g4, ?_, ?_, hreach, g5⟩
    · rw [g3, List.append_assoc, ← g2]; exact f5
    · intro h
      rw [g3, List.append_assoc, ← g2]; exact f6 h

end

/-! ### Non-vacuity -/

-- a program (here on macOS) makes a ring, writes three bytes, maps part of a file, reads two bytes back
example (tab : SysTable) : ∃ (k1 : Kernel) (r0 : Ring) (w : World) (s : Spec.Win),
    Ring.make ⟨.w64, true⟩ demoMac 5000 = .ok (k1, .ok r0) ∧
    Queued tab ⟨.w64, true⟩ 0 (SeqWrite.writeCapacity r0) ((World.start demoMac).put k1 (.ring r0 0)) w s ∧
    s.q = [3] ∧ s.spare.length = 8191 := by
  obtain ⟨k1, r0, made, hc⟩ : ∃ k1 r0, Ring.make ⟨.w64, true⟩ demoMac 5000 = .ok (k1, .ok r0) ∧
    SeqWrite.writeCapacity r0 = 8192 := ⟨_, _, rfl, rfl⟩
  have bound : 3 < posBound ⟨.w64, true⟩ (SeqWrite.writeCapacity r0) := by rw [hc]; decide
  have fits : RingFits ⟨.w64, true⟩ demoMac 5000 :=
    ⟨by show (5000 + 4096 : Nat) < _; decide, fun _ => by show (2 * (5000 + 4096) : Nat) ≤ _; decide⟩
  have key := fun {w s} => C151_ring (tab := tab) (w := w) (s := s) demoMac_wf .start fits made
  have t0 : Queued tab ⟨.w64, true⟩ 0 (SeqWrite.writeCapacity r0) ((World.start demoMac).put k1 (.ring r0 0)) _ _ := .made
  obtain ⟨-, r, -, -, -, -, -, h⟩ := key t0
  have below : ((⟨List.replicate (SeqWrite.writeCapacity r0) 0, [], 0⟩ : Spec.Win).step (.write [1, 2, 3])).1.total <
      posBound ⟨.w64, true⟩ (SeqWrite.writeCapacity r0) := by
    refine Nat.lt_of_le_of_lt ?_ bound
    simp only [Win.step]; simp; omega
  obtain ⟨-, -, w1, -, st, -⟩ := h (.write [1, 2, 3]) below
  have t1 := t0.call below st
  obtain ⟨reach, -⟩ := key t1
  have sane : (Op.mapIf ((Options.new.setOffset 5000).setLen (.exact 3000)) 3).Sane ⟨.w64, true⟩ w1 :=
    ⟨trivial, show (3000 : Nat) < _ by decide, show (5000 : Nat) < _ by decide⟩
  obtain ⟨w2, st⟩ := C78_no_panic demoMac_wf reach sane (fun _ _ _ h => by cases h)
  have t2 := t1.other sane st (fun h => by cases h)
  obtain ⟨-, r, -, -, -, -, -, h⟩ := key t2
  have below : ((((⟨List.replicate (SeqWrite.writeCapacity r0) 0, [], 0⟩ : Spec.Win).step (.write [1, 2, 3])).1.step
      (.read 2)).1.total) < posBound ⟨.w64, true⟩ (SeqWrite.writeCapacity r0) := by
    refine Nat.lt_of_le_of_lt ?_ bound
    simp only [Win.step]; simp; omega
  obtain ⟨-, -, w3, -, st, -⟩ := h (.read 2) below
  refine ⟨k1, r0, w3, _, made, t2.call below st, ?_, ?_⟩
  · have h3 : min 3 (SeqWrite.writeCapacity r0) = 3 := by omega
    simp [Win.step, h3]
  · have h3 : min 3 (SeqWrite.writeCapacity r0) = 3 := by omega
    simp [Win.step, h3]
    omega

-- the same with an infinite ring and `write_all`, on Linux
example (tab : SysTable) : Wf ⟨.w64, true⟩ (demo 0) ∧
    ∃ (k1 : Kernel) (r0 : InfiniteRing) (w : World) (s : Lossy),
    InfiniteRing.make ⟨.w64, true⟩ (demo 0) 1 = .ok (k1, .ok r0) ∧
    Retained tab ⟨.w64, true⟩ 0 (SeqWrite.writeCapacity r0) ((World.start (demo 0)).put k1 (.inf r0 0)) w s ∧
    s.total = 3 := by
  refine ⟨demo_wf 0, ?_⟩
  refine ⟨_, _, _, _, rfl, .call (op := .read 2) (.other (op := .close 3) (.all (bs := [1, 2, 3]) .made ?_ rfl) trivial rfl
    (fun h => by cases h)) ?_ (by simp) trivial rfl, rfl⟩
  · show 0 + min 3 4096 < _
    decide
  · show 0 + (lastN 4096 [1, 2, 3]).length < _
    decide

-- a program makes a `BufReader`, fills its buffer, a file is closed, and it reads
example (tab : SysTable) : Wf ⟨.w64, true⟩ (demo 0) ∧
    ∃ (k1 : Kernel) (b0 b : BufReader (Nat × List ReadEvent)) (w : World) (out : List Byte),
    BufReader.new ⟨.w64, true⟩ (demo 0) (0, []) 5000 = .ok (k1, .ok b0) ∧
    Reads countReader.spy tab ⟨.w64, true⟩ 0 ((World.start (demo 0)).put k1 (.ring b0.buf 0)) b0 w b out 2 ∧
    3 * SeqWrite.writeCapacity b0.buf < posBound ⟨.w64, true⟩ (SeqWrite.writeCapacity b0.buf) ∧
    out.length + SeqWrite.writeCapacity b0.buf ≥ (taken b.inner.2).length := by
  refine ⟨demo_wf 0, ?_⟩
  obtain ⟨k1, b0, made, hc⟩ : ∃ k1, ∃ b0 : BufReader (Nat × List ReadEvent),
    BufReader.new ⟨.w64, true⟩ (demo 0) (0, []) 5000 = .ok (k1, .ok b0) ∧
    SeqWrite.writeCapacity b0.buf = 8192 := ⟨_, _, rfl, rfl⟩
  have bound : ∀ c, c ≤ 3 → c * SeqWrite.writeCapacity b0.buf < posBound ⟨.w64, true⟩ (SeqWrite.writeCapacity b0.buf) := by
    intro c h
    have : posBound ⟨.w64, true⟩ 8192 = 18446744073709551616 := by decide
    rw [hc, this]; omega
  have fits : RingFits ⟨.w64, true⟩ (demo 0) 5000 :=
    ⟨by show (5000 + 4096 : Nat) < _; decide, fun h => by cases h⟩
  have key := fun {w b out c} => C152_reader (tab := tab) (w := w) (b := b) (out := out) (c := c) (demo_wf 0) .start
    countReader 0 fits made
  have t0 : Reads countReader.spy tab ⟨.w64, true⟩ 0 ((World.start (demo 0)).put k1 (.ring b0.buf 0)) b0 _ _ _ _ := .made
  obtain ⟨-, q, n, -, -, -, -, -, -, h⟩ := key t0 (bound _ (by omega))
  obtain ⟨b1, x1, o1, w1, call, -⟩ := h .fillBuf
  have t1 := t0.call call
  have t2 := t1.other (op := .close 3) trivial rfl (fun h => by cases h)
  obtain ⟨-, q, n, -, -, -, -, -, -, h⟩ := key t2 (bound _ (by omega))
  obtain ⟨b2, x2, o2, w3, call, -⟩ := h (.read [0, 0])
  have t3 := t2.call call
  obtain ⟨-, q, n, -, e, hq, -⟩ := key t3 (bound _ (by omega))
  refine ⟨k1, _, b2, w3, _, made, t3, bound _ (by omega), ?_⟩
  rw [← e]
  simp only [List.length_append] at hq ⊢
  omega

-- a program makes a `BufWriter`, writes, a file is closed, and it flushes; the hypotheses of C153 hold
example (tab : SysTable) (e : IoError) : Wf ⟨.w64, true⟩ (demo 0) ∧
    ∃ (k1 : Kernel) (b0 b : BufWriter (Unit × List WriteEvent)) (w : World)
    (acc : List Byte) (x : Out Nat) (fits : Prop),
    BufWriter.new ⟨.w64, true⟩ (demo 0) ((), []) 5000 = .ok (k1, .ok b0) ∧
    Writes (failWriter e).spy 9 tab ⟨.w64, true⟩ 0 ((World.start (demo 0)).put k1 (.ring b0.buf 0)) b0 w b
      (acc ++ WrOp.flush.accepted x) 2 fits ∧
    3 * SeqWrite.writeCapacity b0.buf < posBound ⟨.w64, true⟩ (SeqWrite.writeCapacity b0.buf) := by
  refine ⟨demo_wf 0, ?_⟩
  obtain ⟨k1, b0, made, hc⟩ := demo_bufwriter (σ := Unit) ()
  have bound : ∀ c, c ≤ 3 → c * SeqWrite.writeCapacity b0.buf < posBound ⟨.w64, true⟩ (SeqWrite.writeCapacity b0.buf) := by
    intro c h
    have : posBound ⟨.w64, true⟩ 8192 = 18446744073709551616 := by decide
    rw [hc, this]; omega
  have fits : RingFits ⟨.w64, true⟩ (demo 0) 5000 :=
    ⟨by show (5000 + 4096 : Nat) < _; decide, fun h => by cases h⟩
  have key := fun {w b acc c ex} => C153_writer (tab := tab) (w := w) (b := b) (acc := acc) (c := c) (exact_ := ex)
    (demo_wf 0) .start (failWriter e) 9 () fits made
  have t0 : Writes (failWriter e).spy 9 tab ⟨.w64, true⟩ 0 ((World.start (demo 0)).put k1 (.ring b0.buf 0)) b0 _ _ _ _ _ :=
    .made
  obtain ⟨-, q, n, -, -, -, -, -, -, -, h⟩ := key t0 (bound _ (by omega))
  obtain ⟨b1, x1, w1, call, -⟩ := h (.write [1, 2, 3])
  have t1 := t0.call call
  have t2 := t1.other (op := .close 3) trivial rfl (fun h => by cases h)
  obtain ⟨-, q, n, -, -, -, -, -, -, -, h⟩ := key t2 (bound _ (by omega))
  obtain ⟨b2, x2, w3, call, -⟩ := h .flush
  exact ⟨k1, b0, b2, w3, _, x2, _, made, t2.call call, bound _ (by omega)⟩

end Vmap
