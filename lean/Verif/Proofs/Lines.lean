import Verif.Spec.Lines
import Verif.Model.Lines
import Verif.Proofs.BufferStd
import Verif.Proofs.RingView
import Verif.Props.InfiniteRing
/- Helper lemmas: lines of a ring or of a `BufReader`. -/
namespace Vmap
open Spec Kernel

/-! ### Lists -/

theorem unsplit_eq (d : Byte) : ∀ l : List Byte, unsplit d l = untail d l
  | [] => by simp [unsplit, untail]
  | [b] => by
    by_cases h : b = d <;> simp [unsplit, untail, h]
  | b :: c :: l => by
    have ih := unsplit_eq d (c :: l)
    rw [untail, ← ih]
    · simp only [unsplit, List.getLast?_cons_cons, List.dropLast_cons_cons]
      split <;> rfl
    · simp

theorem chomp_eq : ∀ l : List Byte, chomp l = bare l
  | [] => by simp [chomp, bare]
  | [b] => by
    by_cases h : b = 10
    · subst h; simp [chomp, bare]
    · simp [chomp, h, bare]
  | [b, c] => by
    by_cases h : c = 10
    · subst h
      by_cases h' : b = 13
      · subst h'; simp [chomp, bare]
      · simp [chomp, h', bare]
    · simp [chomp, h, bare]
  | b :: c :: e :: l => by
    have ih := chomp_eq (c :: e :: l)
    rw [bare, ← ih]
    · simp only [chomp, List.getLast?_cons_cons, List.dropLast_cons_cons]
      split
      · split
        · rename_i h
          cases l with
          | nil => simp
          | cons a l => simp
        · rename_i h1 h2
          cases l with
          | nil => simp
          | cons a l => rfl
      · rfl
    · simp
    · simp

/-- Cutting off the first row. -/
theorem rows_line {d : Byte} : ∀ {line : List Byte} (rest : List Byte), d ∉ line →
    rows d (line ++ d :: rest) = (line ++ [d]) :: rows d rest
  | [], rest, _ => by simp [rows]
  | b :: line, rest, h => by
    have hb : b ≠ d := fun c => h (by simp [c])
    have ih := rows_line (d := d) (line := line) rest (fun c => h (List.mem_cons_of_mem _ c))
    simp only [List.cons_append, rows, if_neg hb, ih]

/-- Text without delimiter is one row. -/
theorem rows_one {d : Byte} : ∀ {line : List Byte}, d ∉ line → line ≠ [] → rows d line = [line]
  | [], _, h => absurd rfl h
  | [b], h, _ => by
    have hb : b ≠ d := fun c => h (by simp [c])
    simp [rows, hb]
  | b :: c :: line, h, _ => by
    have hb : b ≠ d := fun c => h (by simp [c])
    have ih := rows_one (line := c :: line) (fun c => h (List.mem_cons_of_mem _ c)) (by simp)
    rw [rows, if_neg hb, ih]

theorem upTo_cases (d : Byte) : ∀ q : List Byte,
    (∃ line rest, q = line ++ d :: rest ∧ d ∉ line ∧ upTo d q = line ++ [d]) ∨
    (d ∉ q ∧ upTo d q = q)
  | [] => .inr (by simp [upTo])
  | b :: l => by
    by_cases hb : b = d
    · exact .inl ⟨[], l, by simp [hb], by simp, by simp [upTo, hb]⟩
    · rcases upTo_cases d l with ⟨line, rest, h1, h2, h3⟩ | ⟨h1, h2⟩
      · exact .inl ⟨b :: line, rest, by simp [h1], by simp [h2, Ne.symm hb],
          by simp [upTo, hb, h3]⟩
      · exact .inr ⟨by simp [h1, Ne.symm hb], by simp [upTo, hb, h2]⟩

/-- The rows of a text: the first one, and those of the rest. -/
theorem rows_step {d : Byte} {q : List Byte} (h : q ≠ []) :
    rows d q = upTo d q :: rows d (q.drop (upTo d q).length) := by
  rcases upTo_cases d q with ⟨line, rest, h1, h2, h3⟩ | ⟨h1, h2⟩
  · rw [h3, h1, rows_line rest h2]
    have : (line ++ d :: rest).drop (line ++ [d]).length = rest := by
      rw [show line ++ d :: rest = (line ++ [d]) ++ rest by simp]
      simp
    rw [this]
  · rw [h2, rows_one h1 h, List.drop_length, rows]

theorem upTo_nil {d : Byte} {q : List Byte} : (upTo d q).length = 0 ↔ q = [] := by
  cases q with
  | nil => simp [upTo]
  | cons b l => by_cases hb : b = d <;> simp [upTo, hb]

theorem rows_length (d : Byte) : ∀ q : List Byte, (rows d q).length ≤ q.length
  | [] => by simp [rows]
  | b :: l => by
    have ih := rows_length d l
    by_cases hb : b = d
    · simp [rows, hb, ih]
    · simp only [rows, if_neg hb]
      cases h : rows d l with
      | nil => simp
      | cons p ps => rw [h] at ih; simp at ih ⊢; omega

/-- Rows are the lines that were put together. -/
theorem rows_flatten {d : Byte} : ∀ {ls : List (List Byte)}, (∀ l ∈ ls, d ∉ l) →
    rows d ((ls.map (· ++ [d])).flatten) = ls.map (· ++ [d])
  | [], _ => by simp [rows]
  | l :: ls, h => by
    have := rows_flatten (ls := ls) (fun x hx => h x (by simp [hx]))
    simp only [List.map_cons, List.flatten_cons, List.append_assoc, List.singleton_append]
    rw [rows_line _ (h l (by simp)), this]

theorem untail_line (d : Byte) : ∀ line : List Byte, untail d (line ++ [d]) = line
  | [] => by simp [untail]
  | b :: l => by
    have ih := untail_line d l
    cases l with
    | nil => simp [untail]
    | cons c l =>
      simp only [List.cons_append] at ih ⊢
      rw [untail, ih]
      simp

theorem bare_line {line : List Byte} (h : line.getLast? ≠ some 13) : bare (line ++ [10]) = line := by
  rw [← chomp_eq, chomp]
  simp [h]

/-! ### Rings -/

section
variable {ρ : Type}

/-- Collecting `f` of what a correct `read_until` appends, until it appends nothing. -/
theorem collect_rows {α : Type} {d : Byte} {P : ρ → List Byte → Prop}
    {ru : ρ → Exec (Option (ρ × List Byte))}
    (hru : ∀ r q, P r q → ∃ r', ru r = .ok (some (r', upTo d q)) ∧ P r' (q.drop (upTo d q).length))
    {next : ρ → Exec (Option (ρ × Option α))} {f : List Byte → α}
    (hn : ∀ r r' got, ru r = .ok (some (r', got)) →
      next r = .ok (some (r', if got.length = 0 then none else some (f got)))) :
    ∀ (steps : Nat) (r : ρ) (q : List Byte), P r q → (rows d q).length < steps →
      ∃ r', collect next steps r = .ok (some (r', (rows d q).map f)) ∧ P r' []
  | 0, _, _, _, hs => by omega
  | steps + 1, r, q, h, hs => by
    obtain ⟨r1, e1, h1⟩ := hru r q h
    have e2 := hn _ _ _ e1
    simp only [collect, e2, bind, Except.bind]
    by_cases hq : q = []
    · subst hq
      refine ⟨r1, by simp [upTo, rows, pure, Except.pure], by simpa [upTo] using h1⟩
    · rw [if_neg (by rw [upTo_nil]; exact hq)]
      have hr := rows_step (d := d) hq
      rw [hr] at hs
      simp only [List.length_cons] at hs
      obtain ⟨r2, e3, h3⟩ := collect_rows hru hn steps r1 _ h1 (by omega)
      simp only [e3]
      exact ⟨r2, by rw [hr]; rfl, h3⟩

end

theorem linesNext_eq {ρ : Type} (valid : List Byte → Bool) (hv : valid [] = true)
    (ru : ρ → Exec (Option (ρ × List Byte))) (r r' : ρ) (got : List Byte)
    (e : ru r = .ok (some (r', got))) :
    linesNext ru valid r = .ok (some (r', if got.length = 0 then none
      else some (lineOf valid got))) := by
  simp only [linesNext, readLine, e, bind, Except.bind, pure, Except.pure, lineOf]
  by_cases hg : got.length = 0
  · have := List.eq_nil_of_length_eq_zero hg
    subst this
    simp [hv]
  · by_cases hv' : valid got = true
    · simp [hv', hg, chomp_eq]
    · simp [hv', hg, notText]

theorem lastN_front (cap : Nat) (q a : List Byte) :
    lastN cap (lastN cap q ++ a) = lastN cap (q ++ a) := by
  simp only [lastN, List.length_append, List.length_drop, List.drop_append, List.drop_drop]
  congr 1
  · congr 1; omega
  · congr 1; omega

theorem upTo_all {d : Byte} {q : List Byte} (h : q.idxOf? d = none) : upTo d q = q := by
  rcases upTo_cases d q with ⟨line, rest, a1, -⟩ | ⟨-, a2⟩
  · exact absurd (by rw [a1]; simp) (idxOf?_none h)
  · exact a2

theorem upTo_found {d : Byte} {q : List Byte} {i : Nat} (h : q.idxOf? d = some i) :
    upTo d q = q.take (i + 1) ∧ (upTo d q).length = i + 1 := by
  obtain ⟨pre, post, h1, h2, h3⟩ := idxOf?_some h
  have hu : upTo d q = pre ++ [d] := by
    rcases upTo_cases d q with ⟨line, rest, a1, a2, a3⟩ | ⟨a1, -⟩
    · have b := rows_line rest a2
      rw [← a1, h1, rows_line post h2] at b
      injection b with b1 b2
      rw [a3, ← b1]
    · exact absurd (by rw [h1]; simp) a1
  rw [hu]
  refine ⟨?_, by simp [h3]⟩
  rw [h1, ← h3, show pre ++ d :: post = (pre ++ [d]) ++ post by simp,
    show pre.length + 1 = (pre ++ [d]).length by simp, List.take_left]

/-- `read_until` on a ring. -/
theorem View.readUntil {t : Target} {k : Kernel} {r : Ring} {n : Nat} {q sp : List Byte}
    (h : View t k r n q sp) (d : Byte) (fuel : Nat) :
    ∃ r' sp', Ring.readUntil t k d (fuel + 2) r [] = .ok (some (r', upTo d q)) ∧
      View t k r' n (q.drop (upTo d q).length) sp' ∧ r'.len = r.len := by
  simp only [Ring.readUntil, h.fillBuf, bind, Except.bind]
  cases hx : q.idxOf? d with
  | some i =>
    obtain ⟨h1, h2⟩ := upTo_found hx
    obtain ⟨r1, e1, v1, l1, -⟩ := h.consume (i + 1)
    simp only [e1, pure, Except.pure, List.nil_append]
    refine ⟨r1, sp ++ q.take (i + 1), by rw [h1], ?_, l1⟩
    rw [h2]
    exact v1
  | none =>
    have hu := upTo_all hx
    obtain ⟨r1, e1, v1, l1, -⟩ := h.consume q.length
    simp only [e1, List.nil_append]
    by_cases hz : q.length = 0
    · rw [if_pos hz]
      exact ⟨r1, _, by rw [hu]; rfl, by rw [hu]; exact v1, l1⟩
    · rw [if_neg hz]
      rw [List.drop_length] at v1
      obtain ⟨r2, e2, v2, l2, -⟩ := v1.consume 0
      simp only [v1.fillBuf, List.idxOf?_nil, e2, List.length_nil]
      refine ⟨r2, sp ++ q.take q.length ++ [], by rw [if_pos trivial, hu, List.append_nil]; rfl, ?_,
        by rw [l2, l1]⟩
      rw [hu, List.drop_length]
      exact v2

/-- A reachable infinite ring with readable bytes `q`. -/
structure InfView (t : Target) (k : Kernel) (r : InfiniteRing) (n : Nat) (q : List Byte) : Prop where
  at_ : InfAt t k r n
  rep : ∃ o old, InfRep t k r o ⟨old, q, n⟩

theorem InfAt.view {t : Target} {k : Kernel} {r : InfiniteRing} {n : Nat} (h : InfAt t k r n) :
    ∃ q, InfView t k r n q := by
  obtain ⟨o, s, h1, h2, -⟩ := h.inv
  subst h2
  exact ⟨s.q, h, o, s.old, h1⟩

namespace InfView
variable {t : Target} {k : Kernel} {r : InfiniteRing} {n : Nat} {q : List Byte}

theorem fillBuf (h : InfView t k r n q) : r.fillBuf t k = .ok q := by
  obtain ⟨o, old, h1⟩ := h.rep
  exact h1.fillBuf_eq

theorem below (h : InfView t k r n q) : n < posBound t r.len := by
  obtain ⟨o, old, h1⟩ := h.rep
  have := h1.pos
  rw [h1.total] at this
  unfold posBound
  split
  · exact this.1
  · rename_i hn
    exact this.2.resolve_left hn

theorem consume (h : InfView t k r n q) (m : Nat) :
    ∃ r', r.consume t m = .ok r' ∧ InfView t k r' n (q.drop m) ∧ r'.len = r.len := by
  obtain ⟨o, old, h1⟩ := h.rep
  refine ⟨_, h1.consume_eq m, ⟨?_, o, _, h1.consumed m⟩, rfl⟩
  exact InfAt.call (op := .consume m) (x := .unit) (w := r.len) h.at_ rfl (by simp) h.below
    trivial (by simp only [InfiniteRing.exec, h1.consume_eq, bind, Except.bind, pure, Except.pure])

/-- `read_until` on an infinite ring. -/
theorem readUntil (h : InfView t k r n q) (d : Byte) (fuel : Nat) :
    ∃ r', InfiniteRing.readUntil t k d (fuel + 2) r [] = .ok (some (r', upTo d q)) ∧
      InfView t k r' n (q.drop (upTo d q).length) ∧ r'.len = r.len := by
  simp only [InfiniteRing.readUntil, h.fillBuf, bind, Except.bind]
  cases hx : q.idxOf? d with
  | some i =>
    obtain ⟨h1, h2⟩ := upTo_found hx
    obtain ⟨r1, e1, v1, l1⟩ := h.consume (i + 1)
    simp only [e1, pure, Except.pure, List.nil_append]
    refine ⟨r1, by rw [h1], ?_, l1⟩
    rw [h2]
    exact v1
  | none =>
    have hu := upTo_all hx
    obtain ⟨r1, e1, v1, l1⟩ := h.consume q.length
    simp only [e1, List.nil_append]
    by_cases hz : q.length = 0
    · rw [if_pos hz]
      exact ⟨r1, by rw [hu]; rfl, by rw [hu]; exact v1, l1⟩
    · rw [if_neg hz]
      rw [List.drop_length] at v1
      obtain ⟨r2, e2, v2, l2⟩ := v1.consume 0
      simp only [v1.fillBuf, List.idxOf?_nil, e2, List.length_nil]
      refine ⟨r2, by rw [if_pos trivial, hu, List.append_nil]; rfl, ?_, by rw [l2, l1]⟩
      rw [hu, List.drop_length]
      simpa using v2

end InfView

/-! ### Buffered readers -/

section
variable {σ : Type}

theorem EofIsFinal.right {a b : List ReadEvent} (h : EofIsFinal (a ++ b)) : EofIsFinal b := by
  intro before e after stored h1 h2 h3
  exact h (a ++ before) e after stored (by rw [h1, List.append_assoc]) h2 h3

theorem EofIsFinal.said {a b : List ReadEvent} (h : EofIsFinal (a ++ b)) (s : SaidEof a) :
    taken b = [] := by
  obtain ⟨before, e, stored, h1, h2, h3⟩ := s
  exact h before e b stored (by rw [h1]; simp) h2 h3

theorem NeverFailed.not {a : List ReadEvent} (h : NeverFailed a) {e : IoError} : ¬ SaidErr a e := by
  rintro ⟨h1, before, x, stored, h2, h3⟩
  exact h1 (h x (by rw [h2]; simp) e stored h3)

/-- The iterator `next` yields `f` of what `read_until(d)` appended. -/
def Yields (R : Reader σ) (t : Target) (d : Byte) (fuel : Nat) (f : List Byte → IoResult (List Byte))
    (next : Kernel → BufReader σ → Exec (Kernel × BufReader σ × Out (Option (IoResult (List Byte))))) :
    Prop :=
  ∀ k b k' b' got x, b.readUntil R t d fuel k [] = .ok (k', b', got, x) →
    next k b = .ok (k', b', match x with
      | .ok () => .ok (if got.length = 0 then none else some (f got))
      | .err e => .ok (some (.error e))
      | .unwound => .unwound
      | .pending => .pending)

theorem yields_split (R : Reader σ) (t : Target) (d : Byte) (fuel : Nat) :
    Yields R t d fuel (fun raw => .ok (untail d raw)) (fun k b => b.splitNext R t d fuel k) := by
  intro k b k' b' got x h
  simp only [BufReader.splitNext, h, bind, Except.bind, unsplit_eq]
  cases x with
  | ok _ =>
    simp only
    split <;> rfl
  | err e => rfl
  | unwound => rfl
  | pending => rfl

theorem yields_lines (R : Reader σ) (t : Target) (valid : List Byte → Bool) (hv : valid [] = true)
    (fuel : Nat) :
    Yields R t 10 fuel (lineOf valid) (fun k b => b.linesNext R t valid fuel k) := by
  intro k b k' b' got x h
  simp only [BufReader.linesNext, BufReader.readLine, h, bind, Except.bind, pure, Except.pure]
  cases x with
  | ok _ =>
    simp only [lineOf]
    by_cases hg : got.length = 0
    · have := List.eq_nil_of_length_eq_zero hg
      subst this
      simp [hv]
    · by_cases hv' : valid got = true
      · simp [hv', hg, chomp_eq]
      · simp [hv', hg, notText]
  | err e => rfl
  | unwound => rfl
  | pending => rfl

/-- What collecting such an iterator gives. -/
structure Collected (d : Byte) (f : List Byte → IoResult (List Byte)) (fuel steps : Nat)
    (q q' : List Byte) (ev : List ReadEvent) (items : List (IoResult (List Byte))) (x : Out Unit) :
    Prop where
  split : ∃ (xs : List Row) (last : List ReadEvent) (lost : List Byte), items = xs.map Row.item ∧ ev = xs.flatMap Row.calls ++ last ∧
    xs.flatMap Row.raw ++ lost ++ q' = q ++ taken ev ∧ (∀ r ∈ xs, r.Right d f) ∧
    match x with
    | .ok () => lost = [] ∧ q' = [] ∧ SaidEof last
    | .err _ => False
    | .unwound => d ∉ lost ∧ SaidPanic last
    | .pending => (steps = xs.length ∧ last = [] ∧ lost = []) ∨
        (d ∉ lost ∧ fuel ≤ lost.length + interrupts last)
  whole : x = .ok () → NeverFailed ev → EofIsFinal ev → items = (rows d (q ++ taken ev)).map f

theorem collect_view (R : Reader σ) {t : Target} {d : Byte} {fuel : Nat}
    {f : List Byte → IoResult (List Byte)}
    {next : Kernel → BufReader (σ × List ReadEvent) →
      Exec (Kernel × BufReader (σ × List ReadEvent) × Out (Option (IoResult (List Byte))))}
    (hy : Yields R.spy t d fuel f next) : ∀ (steps : Nat) {k : Kernel}
    {b : BufReader (σ × List ReadEvent)} {n : Nat} {q sp : List Byte},
    View t k b.buf n q sp → n + steps * (fuel * b.buf.len) < posBound t b.buf.len →
    ∃ k' b' items x n' q' sp' ev, BufReader.collect next steps k b = .ok (k', b', items, x) ∧
      View t k' b'.buf n' q' sp' ∧ b'.inner.2 = b.inner.2 ++ ev ∧
      Collected d f fuel steps q q' ev items x
  | 0, k, b, n, q, sp, h, _ =>
    ⟨k, b, [], .pending, n, q, sp, [], rfl, h, by simp,
      ⟨[], [], [], rfl, rfl, by simp [taken], by simp, .inl ⟨rfl, rfl, rfl⟩⟩, by simp⟩
  | steps + 1, k, b, n, q, sp, h, hb => by
    rw [Nat.add_mul, Nat.one_mul] at hb
    obtain ⟨k1, b1, got, x, n1, q1, sp1, ev1, e1, v1, hn1, l1, lg1, cons, res⟩ :=
      readUntil_view R d fuel [] h (by omega)
    rw [List.nil_append] at e1
    have e2 := hy _ _ _ _ _ _ e1
    simp only [BufReader.collect, e2, bind, Except.bind]
    cases x with
    | unwound =>
      exact ⟨k1, b1, [], .unwound, n1, q1, sp1, ev1, rfl, v1, lg1,
        ⟨[], ev1, got, rfl, rfl, by simpa using cons, by simp, res⟩, by simp⟩
    | pending =>
      exact ⟨k1, b1, [], .pending, n1, q1, sp1, ev1, rfl, v1, lg1,
        ⟨[], ev1, got, rfl, rfl, by simpa using cons, by simp, .inr res⟩, by simp⟩
    | err e =>
      simp only
      obtain ⟨k2, b2, items, y, n2, q2, sp2, ev2, e3, v2, lg2, c⟩ :=
        collect_view R hy steps v1 (by rw [l1]; omega)
      obtain ⟨xs, last, lost, c1, c2, c3, c4, c5⟩ := c.split
      simp only [e3, pure, Except.pure]
      refine ⟨k2, b2, _, y, n2, q2, sp2, ev1 ++ ev2, rfl, v2, by rw [lg2, lg1, List.append_assoc],
        ⟨⟨got, ev1, .error e⟩ :: xs, last, lost, ?_, ?_, ?_, ?_, ?_⟩, ?_⟩
      · simp [c1]
      · simp [c2]
      · rw [taken_append, ← List.append_assoc q, ← cons, List.append_assoc got, ← c3]
        simp
      · intro r hr
        rcases List.mem_cons.mp hr with rfl | hr
        · exact .inr ⟨e, rfl, res.1, res.2⟩
        · exact c4 r hr
      · cases y with
        | ok _ => exact c5
        | err _ => exact c5
        | unwound => exact c5
        | pending =>
          rcases c5 with ⟨a1, a2⟩ | a
          · exact .inl ⟨by simp [a1], a2⟩
          · exact .inr a
      · intro _ hf
        exact absurd res.2 (NeverFailed.not (fun x hx => hf x (by simp [hx])))
    | ok _ =>
      simp only at res
      by_cases hg : got.length = 0
      · have hg' := List.eq_nil_of_length_eq_zero hg
        subst hg'
        rcases res with ⟨line, r1, -⟩ | ⟨r1, r2, r3⟩
        · simp at r1
        · subst r2
          simp only [List.length_nil, if_true, pure, Except.pure]
          refine ⟨k1, b1, [], .ok (), n1, [], sp1, ev1, rfl, v1, lg1,
            ⟨[], ev1, [], rfl, rfl, by simpa using cons, by simp, rfl, rfl, r3⟩, ?_⟩
          intro _ _ _
          rw [← cons]
          simp [rows]
      · simp only [if_neg hg]
        obtain ⟨k2, b2, items, y, n2, q2, sp2, ev2, e3, v2, lg2, c⟩ :=
          collect_view R hy steps v1 (by rw [l1]; omega)
        obtain ⟨xs, last, lost, c1, c2, c3, c4, c5⟩ := c.split
        simp only [e3, pure, Except.pure]
        refine ⟨k2, b2, _, y, n2, q2, sp2, ev1 ++ ev2, rfl, v2, by rw [lg2, lg1, List.append_assoc],
          ⟨⟨got, ev1, f got⟩ :: xs, last, lost, ?_, ?_, ?_, ?_, ?_⟩, ?_⟩
        · simp [c1]
        · simp [c2]
        · rw [taken_append, ← List.append_assoc q, ← cons, List.append_assoc got, ← c3]
          simp
        · intro r hr
          rcases List.mem_cons.mp hr with rfl | hr
          · refine .inl ⟨rfl, ?_⟩
            rcases res with r | ⟨r1, r2, r3⟩
            · exact .inl r
            · exact .inr ⟨fun c => hg (by simp only at c; rw [c]; rfl), r1, r3⟩
          · exact c4 r hr
        · cases y with
          | ok _ => exact c5
          | err _ => exact c5
          | unwound => exact c5
          | pending =>
            rcases c5 with ⟨a1, a2⟩ | a
            · exact .inl ⟨by simp [a1], a2⟩
            · exact .inr a
        · intro hy hf he
          have ih := c.whole hy (fun x hx => hf x (by simp [hx])) he.right
          rw [ih, taken_append, ← List.append_assoc q, ← cons, List.append_assoc]
          rcases res with ⟨line, rfl, r2⟩ | ⟨r1, r2, r3⟩
          · rw [List.append_assoc, List.singleton_append, rows_line _ r2]
            rfl
          · subst r2
            rw [he.said r3]
            simp only [List.append_nil]
            rw [rows_one r1 (fun c => hg (by rw [c]; rfl))]
            simp [rows]

end
end Vmap
