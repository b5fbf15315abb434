import Verif.Proofs.Lines
import Verif.Props.RingStd
import Verif.Props.BufferStd
/-
Property theorems C130 and C131: lines of text in rings and through a `BufReader`.
-/
namespace Vmap
open Kernel Spec
variable {σ : Type}

/-! ### C130: rings -/

/-- C130: `write!` of a text in any pieces is `write_all` of the whole text: `Ok` exactly when the text
fits; otherwise the ring is filled with its beginning and the error is `WriteZero`. -/
theorem C130_ring_write_fmt (t : Target) (k : Kernel) (r : Ring) (n : Nat) (h : RingAt t k r n)
    (q : List Byte) (w : Nat) (hq : r.fillBuf t k = .ok q) (hw : r.writeLen t = .ok w)
    (pieces : List (List Byte))
    (below : n + min pieces.flatten.length w < posBound t (SeqWrite.writeCapacity r)) :
    ∃ k' r', r.writeFmt t k pieces = .ok ((k', r'),
        if pieces.flatten.length ≤ w then .ok () else .error (.ofKind .writeZero)) ∧
      r'.fillBuf t k' = .ok (q ++ pieces.flatten.take w) ∧
      RingAt t k' r' (n + min pieces.flatten.length w) ∧
      SeqWrite.writeCapacity r' = SeqWrite.writeCapacity r := by
  induction pieces generalizing k r n q w with
  | nil => exact ⟨k, r, by simp [Ring.writeFmt, pure, Except.pure], by simpa using hq, by simpa using h, rfl⟩
  | cons p ps ih =>
    simp only [List.flatten_cons, List.length_append] at below ⊢
    obtain ⟨k1, r1, e1, f1, a1, c1⟩ := C14_ring_write_all t k r n h q w hq hw p (by omega)
    simp only [Ring.writeFmt, e1, bind, Except.bind]
    by_cases hp : p.length ≤ w
    · rw [if_pos hp]
      rw [List.take_of_length_le hp] at f1
      obtain ⟨a, b, h1, h2, h3, -⟩ := C08_ring_lengths t k r n h
      obtain ⟨a', b', g1, g2, g3, -⟩ := C08_ring_lengths t k1 r1 _ a1
      obtain ⟨q1, sp, v⟩ := h.view
      obtain ⟨q2, sp2, v2⟩ := a1.view
      have hb : b' = w - p.length := by
        rw [h2] at hw; injection hw with hw
        rw [v.fillBuf] at hq; injection hq with hq
        rw [v2.fillBuf] at f1; injection f1 with f1
        rw [v.readLen] at h1; injection h1 with h1
        rw [v2.readLen] at g1; injection g1 with g1
        rw [c1] at g3
        have := congrArg List.length f1
        rw [← hq] at this
        simp at this
        omega
      have hm : min p.length w = p.length := Nat.min_eq_left hp
      rw [hm] at a1
      obtain ⟨k2, r2, e2, f2, a2, c2⟩ := ih k1 r1 (n + p.length) a1 (q ++ p) b' f1 g2
        (by rw [c1, hb]; omega)
      refine ⟨k2, r2, ?_, ?_, ?_, by rw [c2, c1]⟩
      · show r1.writeFmt t k1 ps = _
        rw [e2]
        congr 2
        by_cases hf : ps.flatten.length ≤ b'
        · rw [if_pos hf, if_pos (by omega)]
        · rw [if_neg hf, if_neg (by omega)]
      · rw [f2, List.take_append, List.take_of_length_le hp, hb, List.append_assoc]
      · have : n + p.length + min ps.flatten.length b' =
            n + min (p.length + ps.flatten.length) w := by omega
        rwa [this] at a2
    · rw [if_neg hp]
      refine ⟨k1, r1, ?_, ?_, ?_, c1⟩
      · rw [if_neg (by omega)]; rfl
      · rw [f1, List.take_append_of_le_length (by omega)]
      · have : min p.length w = min (p.length + ps.flatten.length) w := by omega
        rwa [this] at a1

/-- C130: `write!` on an `InfiniteRing` always succeeds and leaves the last `capacity` bytes of what was
readable followed by the text. -/
theorem C130_infinite_write_fmt (t : Target) (k : Kernel) (r : InfiniteRing) (n : Nat)
    (h : InfAt t k r n) (q : List Byte) (hq : r.fillBuf t k = .ok q) (pieces : List (List Byte))
    (below : n + pieces.flatten.length < posBound t (SeqWrite.writeCapacity r)) :
    ∃ k' r' m, r.writeFmt t k pieces = .ok (k', r') ∧
      r'.fillBuf t k' = .ok (lastN (SeqWrite.writeCapacity r) (q ++ pieces.flatten)) ∧
      InfAt t k' r' m ∧ m ≤ n + pieces.flatten.length ∧
      SeqWrite.writeCapacity r' = SeqWrite.writeCapacity r := by
  induction pieces generalizing k r n q with
  | nil =>
    obtain ⟨o, s, h1, -⟩ := h.inv
    have hl := h1.len_eq
    rw [h1.fillBuf_eq] at hq
    injection hq with hq
    refine ⟨k, r, n, rfl, ?_, h, by simp, rfl⟩
    rw [h1.fillBuf_eq, hq, List.flatten_nil, List.append_nil, lastN_all]
    simp only [SeqWrite.writeCapacity]
    rw [← hq]; omega
  | cons p ps ih =>
    simp only [List.flatten_cons, List.length_append] at below ⊢
    obtain ⟨k1, r1, e1, f1, c1, -⟩ := C20_infinite_write_all t k r n h q hq p (by omega)
    simp only [InfiniteRing.writeFmt, e1, bind, Except.bind]
    have a1 := InfAt.all h (by omega) e1
    obtain ⟨k2, r2, m, e2, f2, a2, m2, c2⟩ := ih k1 r1 _ a1 _ f1 (by rw [c1]; omega)
    refine ⟨k2, r2, m, e2, ?_, a2, by omega, by rw [c2, c1]⟩
    rw [f2, c1, ← List.append_assoc, lastN_front]

/-- C130: `split(d)` on a ring yields the readable bytes cut at every `d`, and leaves the ring empty. -/
theorem C130_ring_split (t : Target) (k : Kernel) (r : Ring) (n : Nat) (h : RingAt t k r n)
    (q : List Byte) (hq : r.fillBuf t k = .ok q) (d : Byte) (fuel steps : Nat)
    (hs : (rows d q).length < steps) :
    ∃ r', collect (splitNext (fun r => Ring.readUntil t k d (fuel + 2) r []) d) steps r =
        .ok (some (r', (rows d q).map (untail d))) ∧
      RingAt t k r' n ∧ r'.fillBuf t k = .ok [] := by
  obtain ⟨q1, sp, v⟩ := h.view
  rw [v.fillBuf] at hq
  injection hq with hq
  subst hq
  obtain ⟨r', e, sp', v'⟩ := collect_rows (d := d) (P := fun r q => ∃ sp, View t k r n q sp)
    (ru := fun r => Ring.readUntil t k d (fuel + 2) r []) (f := untail d)
    (fun r q ⟨sp, v⟩ => by
      obtain ⟨r', sp', e, v', -⟩ := v.readUntil d fuel
      exact ⟨r', e, sp', v'⟩)
    (next := splitNext (fun r => Ring.readUntil t k d (fuel + 2) r []) d)
    (fun r r' got e => by
      simp only [splitNext, e, bind, Except.bind, unsplit_eq, pure, Except.pure]
      split <;> rfl)
    steps r q1 ⟨sp, v⟩ hs
  exact ⟨r', e, v'.at_, v'.fillBuf⟩

/-- C130: `lines()` on a ring yields every line without its line ending, an error for a line that is not
UTF-8 (which costs no other line), and leaves the ring empty. -/
theorem C130_ring_lines (t : Target) (k : Kernel) (r : Ring) (n : Nat) (h : RingAt t k r n)
    (q : List Byte) (hq : r.fillBuf t k = .ok q) (valid : List Byte → Bool) (hv : valid [] = true)
    (fuel steps : Nat) (hs : (rows 10 q).length < steps) :
    ∃ r', collect (linesNext (fun r => Ring.readUntil t k 10 (fuel + 2) r []) valid) steps r =
        .ok (some (r', (rows 10 q).map (lineOf valid))) ∧
      RingAt t k r' n ∧ r'.fillBuf t k = .ok [] := by
  obtain ⟨q1, sp, v⟩ := h.view
  rw [v.fillBuf] at hq
  injection hq with hq
  subst hq
  obtain ⟨r', e, sp', v'⟩ := collect_rows (d := 10) (P := fun r q => ∃ sp, View t k r n q sp)
    (ru := fun r => Ring.readUntil t k 10 (fuel + 2) r []) (f := lineOf valid)
    (fun r q ⟨sp, v⟩ => by
      obtain ⟨r', sp', e, v', -⟩ := v.readUntil 10 fuel
      exact ⟨r', e, sp', v'⟩)
    (next := linesNext (fun r => Ring.readUntil t k 10 (fuel + 2) r []) valid)
    (fun r r' got e => linesNext_eq valid hv _ r r' got e)
    steps r q1 ⟨sp, v⟩ hs
  exact ⟨r', e, v'.at_, v'.fillBuf⟩

/-- C130: the same for an `InfiniteRing`. -/
theorem C130_infinite_split (t : Target) (k : Kernel) (r : InfiniteRing) (n : Nat)
    (h : InfAt t k r n) (q : List Byte) (hq : r.fillBuf t k = .ok q) (d : Byte) (fuel steps : Nat)
    (hs : (rows d q).length < steps) :
    ∃ r', collect (splitNext (fun r => InfiniteRing.readUntil t k d (fuel + 2) r []) d) steps r =
        .ok (some (r', (rows d q).map (untail d))) ∧
      InfAt t k r' n ∧ r'.fillBuf t k = .ok [] := by
  obtain ⟨q1, v⟩ := h.view
  rw [v.fillBuf] at hq
  injection hq with hq
  subst hq
  obtain ⟨r', e, v'⟩ := collect_rows (d := d) (P := fun r q => InfView t k r n q)
    (ru := fun r => InfiniteRing.readUntil t k d (fuel + 2) r []) (f := untail d)
    (fun r q v => by
      obtain ⟨r', e, v', -⟩ := v.readUntil d fuel
      exact ⟨r', e, v'⟩)
    (next := splitNext (fun r => InfiniteRing.readUntil t k d (fuel + 2) r []) d)
    (fun r r' got e => by
      simp only [splitNext, e, bind, Except.bind, unsplit_eq, pure, Except.pure]
      split <;> rfl)
    steps r q1 v hs
  exact ⟨r', e, v'.at_, v'.fillBuf⟩

/-- C130: the same for an `InfiniteRing`. -/
theorem C130_infinite_lines (t : Target) (k : Kernel) (r : InfiniteRing) (n : Nat)
    (h : InfAt t k r n) (q : List Byte) (hq : r.fillBuf t k = .ok q) (valid : List Byte → Bool)
    (hv : valid [] = true) (fuel steps : Nat) (hs : (rows 10 q).length < steps) :
    ∃ r', collect (linesNext (fun r => InfiniteRing.readUntil t k 10 (fuel + 2) r []) valid) steps r =
        .ok (some (r', (rows 10 q).map (lineOf valid))) ∧
      InfAt t k r' n ∧ r'.fillBuf t k = .ok [] := by
  obtain ⟨q1, v⟩ := h.view
  rw [v.fillBuf] at hq
  injection hq with hq
  subst hq
  obtain ⟨r', e, v'⟩ := collect_rows (d := 10) (P := fun r q => InfView t k r n q)
    (ru := fun r => InfiniteRing.readUntil t k 10 (fuel + 2) r []) (f := lineOf valid)
    (fun r q v => by
      obtain ⟨r', e, v', -⟩ := v.readUntil 10 fuel
      exact ⟨r', e, v'⟩)
    (next := linesNext (fun r => InfiniteRing.readUntil t k 10 (fuel + 2) r []) valid)
    (fun r r' got e => linesNext_eq valid hv _ r r' got e)
    steps r q1 v hs
  exact ⟨r', e, v'.at_, v'.fillBuf⟩

/-- C130: `read_line` on a ring appends the first line with its line ending (all that is readable if
there is none) to the caller's string and returns its length; if it is not UTF-8 the string is
unchanged, the error is `InvalidData` and the line is gone from the ring. -/
theorem C130_ring_read_line (t : Target) (k : Kernel) (r : Ring) (n : Nat) (h : RingAt t k r n)
    (q : List Byte) (hq : r.fillBuf t k = .ok q) (valid : List Byte → Bool) (line : List Byte)
    (fuel : Nat) :
    ∃ r', readLine (fun r => Ring.readUntil t k 10 (fuel + 2) r []) valid r line =
        .ok (some (r', if valid (upTo 10 q) then (line ++ upTo 10 q, .ok (upTo 10 q).length)
          else (line, .error (.new .invalidData "stream did not contain valid UTF-8")))) ∧
      RingAt t k r' n ∧ r'.fillBuf t k = .ok (q.drop (upTo 10 q).length) ∧
      SeqWrite.writeCapacity r' = SeqWrite.writeCapacity r := by
  obtain ⟨q1, sp, v⟩ := h.view
  rw [v.fillBuf] at hq
  injection hq with hq
  subst hq
  obtain ⟨r', sp', e, v', hl⟩ := v.readUntil 10 fuel
  refine ⟨r', ?_, v'.at_, v'.fillBuf, hl⟩
  simp only [readLine, e, bind, Except.bind, pure, Except.pure]
  split <;> rfl

/-- C130, round trip: lines (none containing `\n` or ending with `\r`, each UTF-8 with its line ending)
written with `write!("…\n")` one after the other to an empty ring with room for them come back from
`lines()`. -/
theorem C130_ring_round_trip (t : Target) (k : Kernel) (r : Ring) (n : Nat) (h : RingAt t k r n)
    (w : Nat) (hq : r.fillBuf t k = .ok []) (hw : r.writeLen t = .ok w)
    (valid : List Byte → Bool) (hv : valid [] = true) (ls : List (List Byte))
    (hl : ∀ l ∈ ls, 10 ∉ l ∧ l.getLast? ≠ some 13 ∧ valid (l ++ [10]) = true)
    (fits : ((ls.map (· ++ [10])).flatten).length ≤ w)
    (below : n + ((ls.map (· ++ [10])).flatten).length < posBound t (SeqWrite.writeCapacity r))
    (fuel steps : Nat) (hs : ls.length < steps) :
    ∃ k' r' r'', r.writeFmt t k (ls.flatMap fun l => [l, [10]]) = .ok ((k', r'), .ok ()) ∧
      collect (linesNext (fun r => Ring.readUntil t k' 10 (fuel + 2) r []) valid) steps r' =
        .ok (some (r'', ls.map .ok)) ∧ r''.fillBuf t k' = .ok [] := by
  have hf : (ls.flatMap fun l => [l, [10]]).flatten = (ls.map (· ++ [10])).flatten := by
    clear hl fits below hs
    induction ls with
    | nil => rfl
    | cons l ls ih => simp [List.flatMap_cons, ih]
  obtain ⟨k', r', e1, f1, a1, -⟩ := C130_ring_write_fmt t k r n h [] w hq hw
    (ls.flatMap fun l => [l, [10]]) (by rw [hf, Nat.min_eq_left fits]; exact below)
  rw [hf, if_pos fits] at e1
  rw [hf, List.nil_append, List.take_of_length_le fits] at f1
  have hr : rows 10 (ls.map (· ++ [10])).flatten = ls.map (· ++ [10]) :=
    rows_flatten (fun l hx => (hl l hx).1)
  obtain ⟨r'', e2, -, f2⟩ := C130_ring_lines t k' r' _ a1 _ f1 valid hv fuel steps
    (by rw [hr]; simpa using hs)
  refine ⟨k', r', r'', e1, ?_, f2⟩
  rw [e2, hr, List.map_map]
  congr 3
  apply List.map_congr_left
  intro l hx
  obtain ⟨-, h2, h3⟩ := hl l hx
  simp [lineOf, h3, bare_line h2]

-- the rows of "a\r\n\nb", and the lines
example : rows 10 [97, 13, 10, 10, 98] = [[97, 13, 10], [10], [98]] ∧
    (rows 10 [97, 13, 10, 10, 98]).map bare = [[97], [], [98]] ∧
    (rows 10 [97, 13, 10, 10, 98]).map (untail 10) = [[97, 13], [], [98]] := by decide

-- a reachable ring holding [1, 2, 3] (two rows if cut at 2), and two pieces that fit
example : ∃ k r n q w, RingAt ⟨.w64, true⟩ k r n ∧ r.fillBuf ⟨.w64, true⟩ k = .ok q ∧
    (rows 2 q).length = 2 ∧ r.writeLen ⟨.w64, true⟩ = .ok w ∧
    n + min [[(104 : Byte), 105], [10]].flatten.length w <
      posBound ⟨.w64, true⟩ (SeqWrite.writeCapacity r) := by
  obtain ⟨k, r, h, hq⟩ := demo_ringAt
  obtain ⟨_, w, -, hw, -⟩ := C08_ring_lengths _ _ _ _ h
  refine ⟨k, r, 3, _, w, h, hq, by decide, hw, ?_⟩
  have : (12 : Nat) < posBound ⟨.w64, true⟩ r.len := by
    unfold posBound; split <;> simp [lim64, Target.lim, Width.bits]
  have : min [[(104 : Byte), 105], [10]].flatten.length w ≤ 3 := Nat.min_le_left _ _
  simp only [SeqWrite.writeCapacity]
  omega

-- the same for an infinite ring
example : ∃ k r n q, InfAt ⟨.w64, true⟩ k r n ∧ r.fillBuf ⟨.w64, true⟩ k = .ok q ∧
    (rows 2 q).length = 2 ∧ n + [[(104 : Byte), 105], [10]].flatten.length <
      posBound ⟨.w64, true⟩ (SeqWrite.writeCapacity r) := by
  obtain ⟨k, r, h, hq⟩ := demo_infAt
  refine ⟨k, r, 3, _, h, hq, by decide, ?_⟩
  have : (12 : Nat) < posBound ⟨.w64, true⟩ r.len := by
    unfold posBound; split <;> simp [lim64, Target.lim, Width.bits]
  simp only [SeqWrite.writeCapacity]
  simp
  omega

-- an empty ring with room for the lines "hi" and ""
example : ∃ k r n w, RingAt ⟨.w64, true⟩ k r n ∧ r.fillBuf ⟨.w64, true⟩ k = .ok [] ∧
    r.writeLen ⟨.w64, true⟩ = .ok w ∧
    (∀ l ∈ [[(104 : Byte), 105], []], 10 ∉ l ∧ l.getLast? ≠ some 13) ∧
    (([[(104 : Byte), 105], []].map (· ++ [10])).flatten).length ≤ w ∧
    n + (([[(104 : Byte), 105], []].map (· ++ [10])).flatten).length <
      posBound ⟨.w64, true⟩ (SeqWrite.writeCapacity r) := by
  obtain ⟨k, r, h, hq, hl⟩ := demo_ring_8k
  obtain ⟨q, sp, v⟩ := h.view
  obtain ⟨r', e, v', l', -⟩ := v.consume q.length
  rw [List.drop_length] at v'
  have hlen := v'.len
  have hl' : r'.len = 8192 := l'.trans hl
  refine ⟨k, r', 3, _, v'.at_, v'.fillBuf, v'.writeLen, by decide, ?_, ?_⟩
  · simp only [List.length_nil] at hlen
    simp
    simp at hlen
    omega
  · simp only [SeqWrite.writeCapacity, hl']
    simp [posBound, Target.lim, Width.bits, lim64]

/-! ### C131: a `BufReader` -/

/-- C131: collecting `split(d)` of a `BufReader` over any reader.  The items come one for one from pieces
of the stream (what was buffered, then what the inner reader delivered), none lost or doubled
except the beginning of a line that was interrupted by an error: each piece ends at the first
`d` or at an end of file and is yielded without the `d`, or the inner reader failed and
its error was yielded.  The iterator ends only when nothing is left and the inner reader said end of
file. -/
theorem C131_split (R : Reader σ) (t : Target) (k : Kernel)
    (b : BufReader (σ × List ReadEvent)) (n : Nat) (h : RingAt t k b.buf n) (q : List Byte)
    (hq : b.buffer t k = .ok q) (d : Byte) (fuel steps : Nat)
    (below : n + steps * (fuel * SeqWrite.writeCapacity b.buf) <
      posBound t (SeqWrite.writeCapacity b.buf)) :
    ∃ k' b' items x n' q' ev, BufReader.collect (fun k b => b.splitNext R.spy t d fuel k) steps k b =
        .ok (k', b', items, x) ∧
      RingAt t k' b'.buf n' ∧ b'.buffer t k' = .ok q' ∧ b'.inner.2 = b.inner.2 ++ ev ∧
      (∃ (xs : List Row) (last : List ReadEvent) (lost : List Byte),
        items = xs.map Row.item ∧ ev = xs.flatMap Row.calls ++ last ∧
        xs.flatMap Row.raw ++ lost ++ q' = q ++ taken ev ∧
        (∀ r ∈ xs, r.Right d fun raw => .ok (untail d raw)) ∧
        match x with
        | .ok () => lost = [] ∧ q' = [] ∧ SaidEof last
        | .err _ => False
        | .unwound => d ∉ lost ∧ SaidPanic last
        | .pending => (steps = xs.length ∧ last = [] ∧ lost = []) ∨
            (d ∉ lost ∧ fuel ≤ lost.length + interrupts last)) ∧
      (x = .ok () → NeverFailed ev → EofIsFinal ev →
        items = (rows d (q ++ taken ev)).map fun row => .ok (untail d row)) := by
  obtain ⟨q1, sp, v⟩ := h.view
  rw [BufReader.buffer, v.readSlice] at hq
  injection hq with hq
  subst hq
  obtain ⟨k', b', items, x, n', q', sp', ev, e, v', lg, c⟩ :=
    collect_view R (yields_split R.spy t d fuel) steps v below
  exact ⟨k', b', items, x, n', q', ev, e, v'.at_, v'.readSlice, lg, c.split, c.whole⟩

/-- C131: the same for `lines()`: a line is yielded without `\n` or `\r\n`; for one that is not UTF-8 an
`InvalidData` error is yielded, and no other line is lost. -/
theorem C131_lines (R : Reader σ) (t : Target) (k : Kernel)
    (b : BufReader (σ × List ReadEvent)) (n : Nat) (h : RingAt t k b.buf n) (q : List Byte)
    (hq : b.buffer t k = .ok q) (valid : List Byte → Bool) (hv : valid [] = true) (fuel steps : Nat)
    (below : n + steps * (fuel * SeqWrite.writeCapacity b.buf) <
      posBound t (SeqWrite.writeCapacity b.buf)) :
    ∃ k' b' items x n' q' ev,
      BufReader.collect (fun k b => b.linesNext R.spy t valid fuel k) steps k b =
        .ok (k', b', items, x) ∧
      RingAt t k' b'.buf n' ∧ b'.buffer t k' = .ok q' ∧ b'.inner.2 = b.inner.2 ++ ev ∧
      (∃ (xs : List Row) (last : List ReadEvent) (lost : List Byte),
        items = xs.map Row.item ∧ ev = xs.flatMap Row.calls ++ last ∧
        xs.flatMap Row.raw ++ lost ++ q' = q ++ taken ev ∧
        (∀ r ∈ xs, r.Right 10 (lineOf valid)) ∧
        match x with
        | .ok () => lost = [] ∧ q' = [] ∧ SaidEof last
        | .err _ => False
        | .unwound => 10 ∉ lost ∧ SaidPanic last
        | .pending => (steps = xs.length ∧ last = [] ∧ lost = []) ∨
            (10 ∉ lost ∧ fuel ≤ lost.length + interrupts last)) ∧
      (x = .ok () → NeverFailed ev → EofIsFinal ev →
        items = (rows 10 (q ++ taken ev)).map (lineOf valid)) := by
  obtain ⟨q1, sp, v⟩ := h.view
  rw [BufReader.buffer, v.readSlice] at hq
  injection hq with hq
  subst hq
  obtain ⟨k', b', items, x, n', q', sp', ev, e, v', lg, c⟩ :=
    collect_view R (yields_lines R.spy t valid hv fuel) steps v below
  exact ⟨k', b', items, x, n', q', ev, e, v'.at_, v'.readSlice, lg, c.split, c.whole⟩

/-- C131: `read_line` on a `BufReader`, unlike `lines()`, loses nothing on an error of the inner reader:
the string then holds what was there before and what was read, provided that is UTF-8. -/
theorem C131_read_line (R : Reader σ) (t : Target) (k : Kernel)
    (b : BufReader (σ × List ReadEvent)) (n : Nat) (h : RingAt t k b.buf n) (q : List Byte)
    (hq : b.buffer t k = .ok q) (valid : List Byte → Bool) (line : List Byte) (fuel : Nat)
    (below : n + fuel * SeqWrite.writeCapacity b.buf <
      posBound t (SeqWrite.writeCapacity b.buf)) :
    ∃ k' b' line' x n' q' got ev,
      b.readLine R.spy t valid fuel k line = .ok (k', b', line', x) ∧
      RingAt t k' b'.buf n' ∧ b'.buffer t k' = .ok q' ∧ b'.inner.2 = b.inner.2 ++ ev ∧
      got ++ q' = q ++ taken ev ∧ (10 ∉ got ∨ ∃ l, got = l ++ [10] ∧ 10 ∉ l) ∧
      match x with
      | .ok m => m = got.length ∧ valid got = true ∧ line' = line ++ got ∧
          (10 ∈ got ∨ (q' = [] ∧ SaidEof ev))
      | .err e => (e = .new .invalidData "stream did not contain valid UTF-8" ∧ valid got = false ∧
            line' = line ∧ (10 ∈ got ∨ (q' = [] ∧ SaidEof ev))) ∨
          (SaidErr ev e ∧ line' = if valid got then line ++ got else line)
      | .unwound => line' = line ∧ SaidPanic ev
      | .pending => fuel ≤ got.length + interrupts ev := by
  obtain ⟨q1, sp, v⟩ := h.view
  rw [BufReader.buffer, v.readSlice] at hq
  injection hq with hq
  subst hq
  obtain ⟨k', b', got, x, n', q', sp', ev, e, v', -, -, lg, cons, res⟩ :=
    readUntil_view R 10 fuel [] v below
  rw [List.nil_append] at e
  simp only [BufReader.readLine, e, bind, Except.bind, pure, Except.pure]
  cases x with
  | ok _ =>
    have hg : 10 ∉ got ∨ ∃ l, got = l ++ [10] ∧ 10 ∉ l := by
      rcases res with r | r
      · exact .inr r
      · exact .inl r.1
    have hend : 10 ∈ got ∨ (q' = [] ∧ SaidEof ev) := by
      rcases res with ⟨l, r, -⟩ | r
      · exact .inl (by rw [r]; simp)
      · exact .inr r.2
    by_cases hv : valid got = true
    · simp only [hv, if_true]
      exact ⟨k', b', _, _, n', q', got, ev, rfl, v'.at_, v'.readSlice, lg, cons, hg, rfl, hv, rfl, hend⟩
    · simp only [hv]
      exact ⟨k', b', _, _, n', q', got, ev, rfl, v'.at_, v'.readSlice, lg, cons, hg,
        .inl ⟨rfl, by simpa using hv, rfl, hend⟩⟩
  | err e =>
    exact ⟨k', b', _, _, n', q', got, ev, rfl, v'.at_, v'.readSlice, lg, cons, .inl res.1,
      .inr ⟨res.2, rfl⟩⟩
  | unwound =>
    exact ⟨k', b', _, _, n', q', got, ev, rfl, v'.at_, v'.readSlice, lg, cons, .inl res.1, rfl, res.2⟩
  | pending =>
    exact ⟨k', b', _, _, n', q', got, ev, rfl, v'.at_, v'.readSlice, lg, cons, .inl res.1, res.2⟩

-- a reachable BufReader with `[1, 2, 3]` buffered, over a reader that sometimes gives nothing, and room
-- for three rounds of five calls
example : ∃ k, ∃ b : BufReader (Nat × List ReadEvent), ∃ n,
    RingAt ⟨.w64, true⟩ k b.buf n ∧ b.buffer ⟨.w64, true⟩ k = .ok [1, 2, 3] ∧
    n + 3 * (5 * SeqWrite.writeCapacity b.buf) <
      posBound ⟨.w64, true⟩ (SeqWrite.writeCapacity b.buf) := by
  obtain ⟨k, r, h, hq, hl⟩ := demo_ring_8k
  refine ⟨k, ⟨r, (0, []), 0⟩, 3, h, hq, ?_⟩
  simp only [hl]; simp [posBound, Target.lim, Width.bits, lim64]

-- calls of a reader that is interrupted, delivers two bytes and then says end of file
example : NeverFailed [⟨[0, 0], .err (.ofKind .interrupted) []⟩, ⟨[0, 0], .ok 2 [7, 8]⟩,
      ⟨[0], .ok 0 []⟩] ∧
    EofIsFinal [⟨[0, 0], .err (.ofKind .interrupted) []⟩, ⟨[0, 0], .ok 2 [7, 8]⟩, ⟨[0], .ok 0 []⟩] ∧
    taken [⟨[0, 0], .err (.ofKind .interrupted) []⟩, ⟨[0, 0], .ok 2 [7, 8]⟩, ⟨[0], .ok 0 []⟩] =
      [7, 8] := by
  refine ⟨?_, ?_, by decide⟩
  · intro x hx e stored hr
    simp only [List.mem_cons, List.not_mem_nil, or_false] at hx
    rcases hx with rfl | rfl | rfl <;> simp at hr
    rw [← hr.1]; rfl
  · intro before e after stored h1 h2 h3
    rcases before with _ | ⟨a, _ | ⟨b, _ | ⟨c, l⟩⟩⟩ <;> simp at h1
    · obtain ⟨rfl, -⟩ := h1; simp at h3
    · obtain ⟨-, rfl, -⟩ := h1; simp at h3
    · obtain ⟨-, -, -, rfl⟩ := h1; simp [taken]

end Vmap
