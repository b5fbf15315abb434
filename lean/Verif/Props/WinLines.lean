import Verif.Proofs.WinLines
import Verif.Props.RingAdapt
import Verif.Props.WinStd
/-
C181: `take`, `bytes`, `split`, `lines` and `read_line` on rings in whole programs on Windows.
-/
namespace Vmap
open Spec Kernel

section
variable {tab : SysTable} {t : Target} {s0 : Vmap.Win}

/-- C181: a program on Windows makes a `Ring`, uses it, and does anything else; `s` is what the ring should hold.
In every memory the process can have, `take(limit)` read to its end gives the first `limit` readable bytes and leaves
the others in the ring; `bytes()` yields the readable bytes one by one.  Afterwards the ring goes on as a queue, and
nothing was done but to call functions of the ring. -/
theorem C181_ring_adapters (wf : WinWf t s0) (laid : WinLaid t s0) {w0 w : WinWorld} (reach : WinReach tab t s0 w0)
    {hint : Nat} (sane : 2 * (hint + w0.s.gran) < t.lim) {s1 : Vmap.Win} {r0 : Ring}
    (made : w0.s.ringNew t hint = .ok (s1, .ok r0)) {s : Spec.Win}
    (tr : WinQueue tab t w0.next (SeqWrite.writeCapacity r0) (w0.put s1 (.ring r0)) w s) :
    ∃ r, w.held w0.next = some (.ring r) ∧ ∀ k obj, Wf t k → WinShows w.s k obj →
      (∀ limit sz fuel, (∀ i, 0 < sz i) → min limit s.q.length < fuel → ∃ r',
        readAll (takeRead (fun (r : Ring) m => r.read t k m)) fuel sz (r, limit) [] =
          .ok (some ((r', limit - min limit s.q.length), s.q.take limit)) ∧
        WinLeft tab t w0.next (SeqWrite.writeCapacity r0) (w0.put s1 (.ring r0)) w k obj r' (s.q.drop limit)) ∧
      (∀ steps, s.q.length < steps → ∃ r',
        collectBytes (fun (r : Ring) m => r.read t k m) steps r = .ok (some (r', s.q)) ∧
        WinLeft tab t w0.next (SeqWrite.writeCapacity r0) (w0.put s1 (.ring r0)) w k obj r' []) := by
  obtain ⟨g1, g2⟩ := win_made_ring (tab := tab) wf laid reach sane made
  obtain ⟨⟨r, held, -, -⟩, -⟩ := C129_ring wf laid reach sane made tr
  refine ⟨r, held, fun k obj kw sh => ?_⟩
  have f := WinLeft.feeds (w := w) (obj := obj) wf laid g1 g2 kw
  have h : WinLeft tab t w0.next (SeqWrite.writeCapacity r0) (w0.put s1 (.ring r0)) w k obj r s.q :=
    ⟨w, s, .refl, held, sh, tr, rfl⟩
  exact ⟨fun limit sz fuel hsz hf => take_all f h limit hsz hf, fun steps hs => collectBytes_feeds f steps r s.q h hs⟩

/-- C181: the same for an `InfiniteRing`. -/
theorem C181_infinite_adapters (wf : WinWf t s0) (laid : WinLaid t s0) {w0 w : WinWorld} (reach : WinReach tab t s0 w0)
    {hint : Nat} (sane : 2 * (hint + w0.s.gran) < t.lim) {s1 : Vmap.Win} {r0 : InfiniteRing}
    (made : w0.s.infNew t hint = .ok (s1, .ok r0)) {s : Lossy}
    (tr : WinLossy tab t w0.next (SeqWrite.writeCapacity r0) (w0.put s1 (.inf r0)) w s) :
    ∃ r, w.held w0.next = some (.inf r) ∧ ∀ k obj, Wf t k → WinShows w.s k obj →
      (∀ limit sz fuel, (∀ i, 0 < sz i) → min limit s.q.length < fuel → ∃ r',
        readAll (takeRead (fun (r : InfiniteRing) m => r.read t k m)) fuel sz (r, limit) [] =
          .ok (some ((r', limit - min limit s.q.length), s.q.take limit)) ∧
        WinLeftInf tab t w0.next (SeqWrite.writeCapacity r0) (w0.put s1 (.inf r0)) w k obj r' (s.q.drop limit)) ∧
      (∀ steps, s.q.length < steps → ∃ r',
        collectBytes (fun (r : InfiniteRing) m => r.read t k m) steps r = .ok (some (r', s.q)) ∧
        WinLeftInf tab t w0.next (SeqWrite.writeCapacity r0) (w0.put s1 (.inf r0)) w k obj r' []) := by
  obtain ⟨g1, g2⟩ := win_made_inf (tab := tab) wf laid reach sane made
  obtain ⟨⟨r, held, -, -⟩, -⟩ := C129_infinite wf laid reach sane made tr
  refine ⟨r, held, fun k obj kw sh => ?_⟩
  have f := WinLeftInf.feeds (w := w) (obj := obj) wf laid g1 g2 kw
  have h : WinLeftInf tab t w0.next (SeqWrite.writeCapacity r0) (w0.put s1 (.inf r0)) w k obj r s.q :=
    ⟨w, s, .refl, held, sh, tr, rfl⟩
  exact ⟨fun limit sz fuel hsz hf => take_all f h limit hsz hf, fun steps hs => collectBytes_feeds f steps r s.q h hs⟩

/-- C181: `split(d)` of that `Ring` yields the readable bytes cut at every `d`; `lines()` yields every line without
its line ending, and an error for a line that is not UTF-8, which costs no other line; both leave the ring empty.
`read_line` appends the first line with its ending to the caller's string; if it is not UTF-8, the string is as
before, the error is `InvalidData`, and the line is gone. -/
theorem C181_ring_lines (wf : WinWf t s0) (laid : WinLaid t s0) {w0 w : WinWorld} (reach : WinReach tab t s0 w0)
    {hint : Nat} (sane : 2 * (hint + w0.s.gran) < t.lim) {s1 : Vmap.Win} {r0 : Ring}
    (made : w0.s.ringNew t hint = .ok (s1, .ok r0)) {s : Spec.Win}
    (tr : WinQueue tab t w0.next (SeqWrite.writeCapacity r0) (w0.put s1 (.ring r0)) w s) :
    ∃ r, w.held w0.next = some (.ring r) ∧ ∀ k obj, Wf t k → WinShows w.s k obj → ∀ fuel,
      (∀ d steps, (rows d s.q).length < steps → ∃ r',
        collect (splitNext (fun r => Ring.readUntil t k d (fuel + 2) r []) d) steps r =
          .ok (some (r', (rows d s.q).map (untail d))) ∧
        WinLeft tab t w0.next (SeqWrite.writeCapacity r0) (w0.put s1 (.ring r0)) w k obj r' []) ∧
      (∀ valid : List Byte → Bool, valid [] = true → ∀ steps, (rows 10 s.q).length < steps → ∃ r',
        collect (linesNext (fun r => Ring.readUntil t k 10 (fuel + 2) r []) valid) steps r =
          .ok (some (r', (rows 10 s.q).map (lineOf valid))) ∧
        WinLeft tab t w0.next (SeqWrite.writeCapacity r0) (w0.put s1 (.ring r0)) w k obj r' []) ∧
      (∀ (valid : List Byte → Bool) line, ∃ r',
        readLine (fun r => Ring.readUntil t k 10 (fuel + 2) r []) valid r line =
          .ok (some (r', if valid (upTo 10 s.q) then (line ++ upTo 10 s.q, .ok (upTo 10 s.q).length)
            else (line, .error (.new .invalidData "stream did not contain valid UTF-8")))) ∧
        WinLeft tab t w0.next (SeqWrite.writeCapacity r0) (w0.put s1 (.ring r0)) w k obj r'
          (s.q.drop (upTo 10 s.q).length)) := by
  obtain ⟨g1, g2⟩ := win_made_ring (tab := tab) wf laid reach sane made
  obtain ⟨⟨r, held, -, -⟩, -⟩ := C129_ring wf laid reach sane made tr
  refine ⟨r, held, fun k obj kw sh fuel => ?_⟩
  have h : WinLeft tab t w0.next (SeqWrite.writeCapacity r0) (w0.put s1 (.ring r0)) w k obj r s.q :=
    ⟨w, s, .refl, held, sh, tr, rfl⟩
  refine ⟨fun d steps hs => ?_, fun valid hv steps hs => ?_, fun valid line => ?_⟩
  · exact collect_rows (d := d) (ru := fun r => Ring.readUntil t k d (fuel + 2) r []) (f := untail d)
      (fun r q h => h.readUntil wf laid g1 g2 kw d fuel)
      (fun r r' got e => by
        simp only [splitNext, e, bind, Except.bind, unsplit_eq, pure, Except.pure]
        split <;> rfl)
      steps r s.q h hs
  · exact collect_rows (d := 10) (ru := fun r => Ring.readUntil t k 10 (fuel + 2) r []) (f := lineOf valid)
      (fun r q h => h.readUntil wf laid g1 g2 kw 10 fuel)
      (fun r r' got e => linesNext_eq valid hv _ r r' got e)
      steps r s.q h hs
  · obtain ⟨r', e, h'⟩ := h.readUntil wf laid g1 g2 kw 10 fuel
    refine ⟨r', ?_, h'⟩
    simp only [readLine, e, bind, Except.bind, pure, Except.pure]
    split <;> rfl

/-- C181: the same for an `InfiniteRing`. -/
theorem C181_infinite_lines (wf : WinWf t s0) (laid : WinLaid t s0) {w0 w : WinWorld} (reach : WinReach tab t s0 w0)
    {hint : Nat} (sane : 2 * (hint + w0.s.gran) < t.lim) {s1 : Vmap.Win} {r0 : InfiniteRing}
    (made : w0.s.infNew t hint = .ok (s1, .ok r0)) {s : Lossy}
    (tr : WinLossy tab t w0.next (SeqWrite.writeCapacity r0) (w0.put s1 (.inf r0)) w s) :
    ∃ r, w.held w0.next = some (.inf r) ∧ ∀ k obj, Wf t k → WinShows w.s k obj → ∀ fuel,
      (∀ d steps, (rows d s.q).length < steps → ∃ r',
        collect (splitNext (fun r => InfiniteRing.readUntil t k d (fuel + 2) r []) d) steps r =
          .ok (some (r', (rows d s.q).map (untail d))) ∧
        WinLeftInf tab t w0.next (SeqWrite.writeCapacity r0) (w0.put s1 (.inf r0)) w k obj r' []) ∧
      (∀ valid : List Byte → Bool, valid [] = true → ∀ steps, (rows 10 s.q).length < steps → ∃ r',
        collect (linesNext (fun r => InfiniteRing.readUntil t k 10 (fuel + 2) r []) valid) steps r =
          .ok (some (r', (rows 10 s.q).map (lineOf valid))) ∧
        WinLeftInf tab t w0.next (SeqWrite.writeCapacity r0) (w0.put s1 (.inf r0)) w k obj r' []) ∧
      (∀ (valid : List Byte → Bool) line, ∃ r',
        readLine (fun r => InfiniteRing.readUntil t k 10 (fuel + 2) r []) valid r line =
          .ok (some (r', if valid (upTo 10 s.q) then (line ++ upTo 10 s.q, .ok (upTo 10 s.q).length)
            else (line, .error (.new .invalidData "stream did not contain valid UTF-8")))) ∧
        WinLeftInf tab t w0.next (SeqWrite.writeCapacity r0) (w0.put s1 (.inf r0)) w k obj r'
          (s.q.drop (upTo 10 s.q).length)) := by
  obtain ⟨g1, g2⟩ := win_made_inf (tab := tab) wf laid reach sane made
  obtain ⟨⟨r, held, -, -⟩, -⟩ := C129_infinite wf laid reach sane made tr
  refine ⟨r, held, fun k obj kw sh fuel => ?_⟩
  have h : WinLeftInf tab t w0.next (SeqWrite.writeCapacity r0) (w0.put s1 (.inf r0)) w k obj r s.q :=
    ⟨w, s, .refl, held, sh, tr, rfl⟩
  refine ⟨fun d steps hs => ?_, fun valid hv steps hs => ?_, fun valid line => ?_⟩
  · exact collect_rows (d := d) (ru := fun r => InfiniteRing.readUntil t k d (fuel + 2) r []) (f := untail d)
      (fun r q h => h.readUntil wf laid g1 g2 kw d fuel)
      (fun r r' got e => by
        simp only [splitNext, e, bind, Except.bind, unsplit_eq, pure, Except.pure]
        split <;> rfl)
      steps r s.q h hs
  · exact collect_rows (d := 10) (ru := fun r => InfiniteRing.readUntil t k 10 (fuel + 2) r []) (f := lineOf valid)
      (fun r q h => h.readUntil wf laid g1 g2 kw 10 fuel)
      (fun r r' got e => linesNext_eq valid hv _ r r' got e)
      steps r s.q h hs
  · obtain ⟨r', e, h'⟩ := h.readUntil wf laid g1 g2 kw 10 fuel
    refine ⟨r', ?_, h'⟩
    simp only [readLine, e, bind, Except.bind, pure, Except.pure]
    split <;> rfl

/-- C181: `write!` to that `Ring`, in any pieces, is `write_all` of the whole text: `Ok` exactly if it fits; if not,
the ring is filled with its beginning, and the error is `WriteZero`. -/
theorem C181_ring_write_fmt (wf : WinWf t s0) (laid : WinLaid t s0) {w0 w : WinWorld} (reach : WinReach tab t s0 w0)
    {hint : Nat} (sane : 2 * (hint + w0.s.gran) < t.lim) {s1 : Vmap.Win} {r0 : Ring}
    (made : w0.s.ringNew t hint = .ok (s1, .ok r0)) {s : Spec.Win}
    (tr : WinQueue tab t w0.next (SeqWrite.writeCapacity r0) (w0.put s1 (.ring r0)) w s) :
    ∃ r, w.held w0.next = some (.ring r) ∧ ∀ k obj, Wf t k → WinShows w.s k obj → ∀ pieces : List (List Byte),
      s.total + min pieces.flatten.length s.spare.length < posBound t (SeqWrite.writeCapacity r0) → ∃ k' r',
        r.writeFmt t k pieces = .ok ((k', r'),
          if pieces.flatten.length ≤ s.spare.length then .ok () else .error (.ofKind .writeZero)) ∧ Wf t k' ∧
        WinLeft tab t w0.next (SeqWrite.writeCapacity r0) (w0.put s1 (.ring r0)) w k' obj r'
          (s.q ++ pieces.flatten.take s.spare.length) := by
  obtain ⟨g1, g2⟩ := win_made_ring (tab := tab) wf laid reach sane made
  obtain ⟨⟨r, held, -, -⟩, -⟩ := C129_ring wf laid reach sane made tr
  exact ⟨r, held, fun k obj kw sh pieces below => win_ring_fmt wf laid g1 g2 pieces tr held kw sh below⟩

/-- C181: `write!` to an `InfiniteRing` always succeeds, and leaves the last capacity bytes of what was readable
followed by the text. -/
theorem C181_infinite_write_fmt (wf : WinWf t s0) (laid : WinLaid t s0) {w0 w : WinWorld} (reach : WinReach tab t s0 w0)
    {hint : Nat} (sane : 2 * (hint + w0.s.gran) < t.lim) {s1 : Vmap.Win} {r0 : InfiniteRing}
    (made : w0.s.infNew t hint = .ok (s1, .ok r0)) {s : Lossy}
    (tr : WinLossy tab t w0.next (SeqWrite.writeCapacity r0) (w0.put s1 (.inf r0)) w s) :
    ∃ r, w.held w0.next = some (.inf r) ∧ ∀ k obj, Wf t k → WinShows w.s k obj → ∀ pieces : List (List Byte),
      s.total + pieces.flatten.length < posBound t (SeqWrite.writeCapacity r0) → ∃ k' r',
        r.writeFmt t k pieces = .ok (k', r') ∧ Wf t k' ∧
        WinLeftInf tab t w0.next (SeqWrite.writeCapacity r0) (w0.put s1 (.inf r0)) w k' obj r'
          (lastN (SeqWrite.writeCapacity r0) (s.q ++ pieces.flatten)) := by
  obtain ⟨g1, g2⟩ := win_made_inf (tab := tab) wf laid reach sane made
  obtain ⟨⟨r, held, -, -⟩, -⟩ := C129_infinite wf laid reach sane made tr
  exact ⟨r, held, fun k obj kw sh pieces below => win_inf_fmt wf laid g1 g2 pieces tr held kw sh below⟩

end

/-- Non-vacuity: a ring into which "a\r\nb" was written; the lines are "a" and "b", and `take(2)` gives "a\r". -/
example : WinWf ⟨.w64, true⟩ (winDemo []) ∧ WinLaid ⟨.w64, true⟩ (winDemo []) ∧
    ∃ (s1 : Vmap.Win) (r0 r r' r'' : Ring) (w : WinWorld) (s : Spec.Win) (k : Kernel),
    (winDemo []).ringNew ⟨.w64, true⟩ 5000 = .ok (s1, .ok r0) ∧
    WinQueue winTab ⟨.w64, true⟩ 0 (SeqWrite.writeCapacity r0) ((WinWorld.start (winDemo [])).put s1 (.ring r0)) w s ∧
    w.held 0 = some (.ring r) ∧
    collect (linesNext (fun r => Ring.readUntil ⟨.w64, true⟩ k 10 2 r []) (fun _ => true)) 3 r =
      .ok (some (r', [.ok [97], .ok [98]])) ∧
    readAll (takeRead (fun (r : Ring) m => r.read ⟨.w64, true⟩ k m)) 3 (fun _ => 32) (r, 2) [] =
      .ok (some ((r'', 0), [97, 13])) := by
  refine ⟨winDemo_wf [], winDemo_laid [], ?_⟩
  obtain ⟨s1, r0, made, hc⟩ := winDemo_ring
  have bound : 4 < posBound ⟨.w64, true⟩ (SeqWrite.writeCapacity r0) := by rw [hc]; decide
  obtain ⟨⟨r, -, -, h⟩, -, k, obj, kw, sh⟩ := C129_ring (tab := winTab) (winDemo_wf []) (winDemo_laid []) .start
    (by decide) made .made
  have need : ((⟨List.replicate (SeqWrite.writeCapacity r0) 0, [], 0⟩ : Spec.Win).step (.write [97, 13, 10, 98])).1.total <
      posBound ⟨.w64, true⟩ (SeqWrite.writeCapacity r0) := by
    refine Nat.lt_of_le_of_lt ?_ bound
    simp only [Win.step]; simp; omega
  have hq : ((⟨List.replicate (SeqWrite.writeCapacity r0) 0, [], 0⟩ : Spec.Win).step (.write [97, 13, 10, 98])).1.q =
      [97, 13, 10, 98] := by
    simp only [Win.step, List.nil_append, List.length_replicate, hc]; rfl
  obtain ⟨k1, -, w1, -, call, -, kw1, sh1⟩ := (h k obj kw sh).2.2 (.write [97, 13, 10, 98]) need
  have t1 := Spec.WinQueue.call .made need call
  obtain ⟨r1, held1, all⟩ := C181_ring_lines (winDemo_wf []) (winDemo_laid []) .start (by decide) made t1
  obtain ⟨r2, e, -⟩ := (all k1 obj kw1 sh1 0).2.1 (fun _ => true) rfl 3 (by rw [hq]; decide)
  obtain ⟨r3, held3, all3⟩ := C181_ring_adapters (winDemo_wf []) (winDemo_laid []) .start (by decide) made t1
  rw [held1] at held3; injection held3 with held3; injection held3 with held3; subst held3
  obtain ⟨r4, e4, -⟩ := (all3 k1 obj kw1 sh1).1 2 (fun _ => 32) 3 (fun _ => by decide) (by rw [hq]; decide)
  refine ⟨s1, r0, r1, r2, r4, w1, _, k1, made, t1, held1, ?_, ?_⟩
  · rw [e, hq]; rfl
  · rw [e4, hq]; rfl

/-- Non-vacuity: the same for an infinite ring, with "a\nb". -/
example : WinWf ⟨.w64, true⟩ (winDemo []) ∧ WinLaid ⟨.w64, true⟩ (winDemo []) ∧
    ∃ (s1 : Vmap.Win) (r0 r r' r'' : InfiniteRing) (w : WinWorld) (s : Lossy) (k : Kernel),
    (winDemo []).infNew ⟨.w64, true⟩ 5000 = .ok (s1, .ok r0) ∧
    WinLossy winTab ⟨.w64, true⟩ 0 (SeqWrite.writeCapacity r0) ((WinWorld.start (winDemo [])).put s1 (.inf r0)) w s ∧
    w.held 0 = some (.inf r) ∧
    collect (linesNext (fun r => InfiniteRing.readUntil ⟨.w64, true⟩ k 10 2 r []) (fun _ => true)) 3 r =
      .ok (some (r', [.ok [97], .ok [98]])) ∧
    collectBytes (fun (r : InfiniteRing) m => r.read ⟨.w64, true⟩ k m) 4 r = .ok (some (r'', [97, 10, 98])) := by
  refine ⟨winDemo_wf [], winDemo_laid [], ?_⟩
  obtain ⟨s1, a0, -, -, made, -, -, ca, -⟩ := winDemo_infs
  have bound : 3 < posBound ⟨.w64, true⟩ (SeqWrite.writeCapacity a0) := by rw [ca]; decide
  obtain ⟨⟨r, -, -, h⟩, -, k, obj, kw, sh⟩ := C129_infinite (tab := winTab) (winDemo_wf []) (winDemo_laid []) .start
    (by decide) made .made
  have hs : ((⟨List.replicate (SeqWrite.writeCapacity a0) 0, [], 0⟩ : Lossy).step (.write [97, 10, 98])).1.q = [97, 10, 98] ∧
      ((⟨List.replicate (SeqWrite.writeCapacity a0) 0, [], 0⟩ : Lossy).step (.write [97, 10, 98])).1.total = 3 := by
    have h3 : 3 ≤ SeqWrite.writeCapacity a0 := by rw [ca]; decide
    generalize SeqWrite.writeCapacity a0 = c at h3
    have hm : min 3 c = 3 := Nat.min_eq_left h3
    simp [Lossy.step, Lossy.all, Lossy.append, hm]
    rw [lastN, List.drop_drop, List.length_append, List.length_replicate]
    have : c + [(97 : Byte), 10, 98].length - c + (c - 3) = c := by simp only [List.length_cons, List.length_nil]; omega
    rw [this, List.drop_append_of_le_length (by simp), List.drop_eq_nil_of_le (by simp), List.nil_append]
  have need := Nat.lt_of_le_of_lt (Nat.le_of_eq hs.2) bound
  obtain ⟨k1, -, w1, -, call, -, kw1, sh1⟩ := (h k obj kw sh).2.2 (.write [97, 10, 98]) need trivial
  have t1 := Spec.WinLossy.call .made need (by simp) trivial call
  obtain ⟨r1, held1, all⟩ := C181_infinite_lines (winDemo_wf []) (winDemo_laid []) .start (by decide) made t1
  obtain ⟨r2, e, -⟩ := (all k1 obj kw1 sh1 0).2.1 (fun _ => true) rfl 3 (by rw [hs.1]; decide)
  obtain ⟨r3, held3, all3⟩ := C181_infinite_adapters (winDemo_wf []) (winDemo_laid []) .start (by decide) made t1
  rw [held1] at held3; injection held3 with held3; injection held3 with held3; subst held3
  obtain ⟨r4, e4, -⟩ := (all3 k1 obj kw1 sh1).2 4 (by rw [hs.1]; decide)
  refine ⟨s1, a0, r1, r2, r4, w1, _, k1, made, t1, held1, ?_, ?_⟩
  · rw [e, hs.1]; rfl
  · rw [e4, hs.1]

/-- Non-vacuity: the text "a\n" in two pieces, to a new ring. -/
example : WinWf ⟨.w64, true⟩ (winDemo []) ∧ WinLaid ⟨.w64, true⟩ (winDemo []) ∧
    ∃ (s1 : Vmap.Win) (r0 r r' : Ring) (k k' : Kernel) (obj : Nat → Obj),
    (winDemo []).ringNew ⟨.w64, true⟩ 5000 = .ok (s1, .ok r0) ∧
    ((WinWorld.start (winDemo [])).put s1 (.ring r0)).held 0 = some (.ring r) ∧
    r.writeFmt ⟨.w64, true⟩ k [[97], [10]] = .ok ((k', r'), .ok ()) ∧
    WinLeft winTab ⟨.w64, true⟩ 0 (SeqWrite.writeCapacity r0) ((WinWorld.start (winDemo [])).put s1 (.ring r0))
      ((WinWorld.start (winDemo [])).put s1 (.ring r0)) k' obj r' [97, 10] := by
  refine ⟨winDemo_wf [], winDemo_laid [], ?_⟩
  obtain ⟨s1, r0, made, hc⟩ := winDemo_ring
  have bound : 2 < posBound ⟨.w64, true⟩ (SeqWrite.writeCapacity r0) := by rw [hc]; decide
  have h2 : 2 ≤ SeqWrite.writeCapacity r0 := by rw [hc]; decide
  obtain ⟨-, -, k, obj, kw, sh⟩ := C129_ring (tab := winTab) (winDemo_wf []) (winDemo_laid []) .start
    (by decide) made .made
  obtain ⟨r, held, all⟩ := C181_ring_write_fmt (tab := winTab) (winDemo_wf []) (winDemo_laid []) .start (by decide) made .made
  have hl : (List.replicate (SeqWrite.writeCapacity r0) (0 : Byte)).length = SeqWrite.writeCapacity r0 :=
    List.length_replicate
  have hp : [[(97 : Byte)], [10]].flatten.length = 2 := rfl
  obtain ⟨k', r', e, -, left⟩ := all k obj kw sh [[97], [10]] (by rw [hl, hp]; simp only; omega)
  rw [hl, hp, if_pos h2] at e
  rw [hl, List.take_of_length_le (by rw [hp]; exact h2)] at left
  exact ⟨s1, r0, r, r', k, k', obj, made, held, e, left⟩

/-- Non-vacuity: the same text to a new infinite ring. -/
example : WinWf ⟨.w64, true⟩ (winDemo []) ∧ WinLaid ⟨.w64, true⟩ (winDemo []) ∧
    ∃ (s1 : Vmap.Win) (r0 r r' : InfiniteRing) (k k' : Kernel) (obj : Nat → Obj),
    (winDemo []).infNew ⟨.w64, true⟩ 5000 = .ok (s1, .ok r0) ∧
    ((WinWorld.start (winDemo [])).put s1 (.inf r0)).held 0 = some (.inf r) ∧
    r.writeFmt ⟨.w64, true⟩ k [[97], [10]] = .ok (k', r') ∧
    WinLeftInf winTab ⟨.w64, true⟩ 0 (SeqWrite.writeCapacity r0) ((WinWorld.start (winDemo [])).put s1 (.inf r0))
      ((WinWorld.start (winDemo [])).put s1 (.inf r0)) k' obj r' [97, 10] := by
  refine ⟨winDemo_wf [], winDemo_laid [], ?_⟩
  obtain ⟨s1, a0, -, -, made, -, -, ca, -⟩ := winDemo_infs
  have bound : 2 < posBound ⟨.w64, true⟩ (SeqWrite.writeCapacity a0) := by rw [ca]; decide
  have h2 : 2 ≤ SeqWrite.writeCapacity a0 := by rw [ca]; decide
  obtain ⟨-, -, k, obj, kw, sh⟩ := C129_infinite (tab := winTab) (winDemo_wf []) (winDemo_laid []) .start
    (by decide) made .made
  obtain ⟨r, held, all⟩ := C181_infinite_write_fmt (tab := winTab) (winDemo_wf []) (winDemo_laid []) .start (by decide) made
    .made
  have hp : [[(97 : Byte)], [10]].flatten.length = 2 := rfl
  obtain ⟨k', r', e, -, left⟩ := all k obj kw sh [[97], [10]] (by rw [hp]; omega)
  rw [List.nil_append, lastN_all (by rw [hp]; exact h2)] at left
  exact ⟨s1, a0, r, r', k, k', obj, made, held, e, left⟩

end Vmap
