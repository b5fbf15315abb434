import Verif.Model.WinDoc
import Verif.Spec.WinDoc
import Verif.Props.DocBuf
import Verif.Props.WinQueue
import Verif.Proofs.WinCalls
/-
Helper lemmas for C161 and C162.
-/
namespace Vmap
open Kernel Spec

/-- Every program has such a function. -/
theorem winMemory_exists (t : Target) : ∃ mem, WinMemory t mem := by
  refine ⟨fun s => { winMemory s with data := s.bytes.mem }, fun s h => ?_⟩
  obtain ⟨w, m⟩ := WinLaid.memory h
  exact ⟨⟨w.page, w.addr, w.objs, w.fds, w.names, w.excl, w.shared⟩, fun i => i, ⟨m.page, m.inj, m.view, m.only⟩,
    fun _ _ _ _ => rfl⟩

/-! ### Where a ring is does not change -/

/-- `r'` is at the place of `r`. -/
def Ring.Stays (r r' : Ring) : Prop := r'.ptr = r.ptr ∧ r'.len = r.len

theorem Ring.Stays.refl (r : Ring) : r.Stays r := ⟨rfl, rfl⟩

theorem Ring.Stays.trans {a b c : Ring} (h : a.Stays b) (h' : b.Stays c) : a.Stays c :=
  ⟨h'.1.trans h.1, h'.2.trans h.2⟩

theorem Ring.consume_stays {t : Target} {r r' : Ring} {n : Nat} (h : r.consume t n = .ok r') : r.Stays r' := by
  simp only [Ring.consume, bind, Except.bind] at h
  split at h
  · cases h
  split at h <;> cases h
  exact ⟨rfl, rfl⟩

theorem Ring.feed_stays {t : Target} {r r' : Ring} {n : Nat} (h : r.feed t n = .ok r') : r.Stays r' := by
  simp only [Ring.feed, bind, Except.bind] at h
  split at h
  · cases h
  split at h <;> cases h
  exact ⟨rfl, rfl⟩

theorem Ring.write_stays {t : Target} {k k' : Kernel} {r r' : Ring} {buf : List Byte} {n : Nat}
    (h : r.write t k buf = .ok (k', r', n)) : r.Stays r' := by
  simp only [Ring.write, writeInto, bind, Except.bind] at h
  repeat' split at h
  all_goals first
    | cases h; done
    | (rename_i hf; cases h; exact Ring.feed_stays hf)

theorem Ring.writeAll_stays {t : Target} {k : Kernel} {r : Ring} {buf : List Byte} {k' : Kernel} {r' : Ring}
    {x : IoResult Unit} (h : r.writeAll t k buf = .ok ((k', r'), x)) : r.Stays r' := by
  fun_induction Ring.writeAll t k r buf
  · cases h; exact .refl _
  · cases h
  · cases h; exact Ring.write_stays (by assumption)
  · cases h
  · rename_i hw hn _ ih
    exact (Ring.write_stays hw).trans (ih h)

theorem Ring.writeFmt_stays {t : Target} {k' : Kernel} {r' : Ring} {x : IoResult Unit} :
    ∀ (ps : List (List Byte)) {k : Kernel} {r : Ring}, r.writeFmt t k ps = .ok ((k', r'), x) → r.Stays r'
  | [], _, _, h => by cases h; exact .refl _
  | p :: ps, _, _, h => by
    simp only [Ring.writeFmt, bind, Except.bind] at h
    split at h
    · cases h
    rename_i y hy
    split at h
    · exact (Ring.writeAll_stays hy).trans (Ring.writeFmt_stays ps h)
    · cases h; exact Ring.writeAll_stays hy

theorem Ring.readUntil_stays {t : Target} {k : Kernel} {d : Byte} {r' : Ring} {got : List Byte} :
    ∀ (fuel : Nat) {r : Ring} {acc : List Byte}, Ring.readUntil t k d fuel r acc = .ok (some (r', got)) → r.Stays r'
  | 0, _, _, h => by cases h
  | fuel + 1, _, _, h => by
    simp only [Ring.readUntil, bind, Except.bind] at h
    split at h
    · cases h
    split at h
    · split at h
      · cases h
      rename_i hc
      cases h; exact Ring.consume_stays hc
    · split at h
      · cases h
      rename_i hc
      split at h
      · cases h; exact Ring.consume_stays hc
      · exact (Ring.consume_stays hc).trans (Ring.readUntil_stays fuel h)

theorem readLine_stays {t : Target} {k : Kernel} {fuel : Nat} {valid : List Byte → Bool} {r r' : Ring}
    {line got : List Byte} {x : IoResult Nat}
    (h : readLine (fun r => Ring.readUntil t k 10 fuel r []) valid r line = .ok (some (r', got, x))) : r.Stays r' := by
  simp only [readLine, bind, Except.bind] at h
  split at h
  · cases h
  rename_i hy
  split at h
  · cases h
  · split at h <;> (cases h; exact Ring.readUntil_stays _ hy)

theorem Doc.fill_stays {t : Target} {k' : Kernel} {r' : Ring} {x : IoResult Nat} :
    ∀ (fuel : Nat) {k : Kernel} {r : Ring} {i : Nat}, Doc.fill t fuel k r i = .ok (some ((k', r'), x)) → r.Stays r'
  | 0, _, _, _, h => by cases h
  | fuel + 1, _, _, _, h => by
    simp only [Doc.fill, bind, Except.bind] at h
    split at h
    · cases h
    split at h
    · split at h
      · cases h
      rename_i hy
      split at h
      · cases h; exact Ring.writeFmt_stays _ hy
      · split at h
        · cases h
        · exact (Ring.writeFmt_stays _ hy).trans (Doc.fill_stays fuel h)
    · cases h; exact .refl _

theorem Doc.ringBody_stays {t : Target} {valid : List Byte → Bool} {fuel : Nat} {k k' : Kernel} {r r' : Ring}
    {x : IoResult Unit} (h : Doc.ringBody t valid fuel k r = .ok (some ((k', r'), x))) : r.Stays r' := by
  simp only [Doc.ringBody, bind, Except.bind] at h
  split at h
  · cases h
  rename_i h1
  split at h
  · cases h
  · cases h; exact Doc.fill_stays _ h1
  split at h
  · cases h
  rename_i h2
  have s2 := (Doc.fill_stays _ h1).trans (Ring.writeFmt_stays _ h2)
  split at h
  · cases h
  split at h
  · cases h
  rename_i h3
  split at h
  · cases h
  · cases h; exact s2.trans (readLine_stays h3)
  have s3 := s2.trans (readLine_stays h3)
  split at h
  · cases h
  split at h
  · cases h
  rename_i h4
  split at h
  · cases h
  · cases h; exact s3.trans (readLine_stays h4)
  have s4 := s3.trans (readLine_stays h4)
  split at h
  · cases h
  split at h
  · cases h
  rename_i v h5
  obtain ⟨⟨k5, r5⟩, x5⟩ := v
  cases h
  exact s4.trans (Ring.writeFmt_stays _ h5)

/-! The same for an infinite ring. -/

/-- `r'` is at the place of `r`. -/
def InfiniteRing.Stays (r r' : InfiniteRing) : Prop := r'.ptr = r.ptr ∧ r'.len = r.len

theorem InfiniteRing.Stays.refl (r : InfiniteRing) : r.Stays r := ⟨rfl, rfl⟩

theorem InfiniteRing.Stays.trans {a b c : InfiniteRing} (h : a.Stays b) (h' : b.Stays c) : a.Stays c :=
  ⟨h'.1.trans h.1, h'.2.trans h.2⟩

theorem InfiniteRing.consume_stays {t : Target} {r r' : InfiniteRing} {n : Nat} (h : r.consume t n = .ok r') :
    r.Stays r' := by
  simp only [InfiniteRing.consume, bind, Except.bind] at h
  split at h
  · cases h
  split at h <;> cases h
  exact ⟨rfl, rfl⟩

theorem InfiniteRing.feed_stays {t : Target} {r r' : InfiniteRing} {n : Nat} (h : r.feed t n = .ok r') :
    r.Stays r' := by
  simp only [InfiniteRing.feed, bind, Except.bind] at h
  repeat' split at h
  all_goals first | (cases h; exact ⟨rfl, rfl⟩) | cases h

theorem InfiniteRing.writeAll_stays {t : Target} {k k' : Kernel} {r r' : InfiniteRing} {buf : List Byte}
    (h : r.writeAll t k buf = .ok (k', r')) : r.Stays r' := by
  simp only [InfiniteRing.writeAll, bind, Except.bind] at h
  repeat' split at h
  all_goals first
    | cases h; done
    | (rename_i hf; cases h; exact InfiniteRing.feed_stays hf)

theorem InfiniteRing.writeFmt_stays {t : Target} {k' : Kernel} {r' : InfiniteRing} :
    ∀ (ps : List (List Byte)) {k : Kernel} {r : InfiniteRing}, r.writeFmt t k ps = .ok (k', r') → r.Stays r'
  | [], _, _, h => by cases h; exact .refl _
  | p :: ps, _, _, h => by
    simp only [InfiniteRing.writeFmt, bind, Except.bind] at h
    split at h
    · cases h
    rename_i y hy
    exact (InfiniteRing.writeAll_stays hy).trans (InfiniteRing.writeFmt_stays ps h)

theorem InfiniteRing.readUntil_stays {t : Target} {k : Kernel} {d : Byte} {r' : InfiniteRing} {got : List Byte} :
    ∀ (fuel : Nat) {r : InfiniteRing} {acc : List Byte},
      InfiniteRing.readUntil t k d fuel r acc = .ok (some (r', got)) → r.Stays r'
  | 0, _, _, h => by cases h
  | fuel + 1, _, _, h => by
    simp only [InfiniteRing.readUntil, bind, Except.bind] at h
    split at h
    · cases h
    split at h
    · split at h
      · cases h
      rename_i hc
      cases h; exact InfiniteRing.consume_stays hc
    · split at h
      · cases h
      rename_i hc
      split at h
      · cases h; exact InfiniteRing.consume_stays hc
      · exact (InfiniteRing.consume_stays hc).trans (InfiniteRing.readUntil_stays fuel h)

theorem Doc.flood_stays {t : Target} {k' : Kernel} {r' : InfiniteRing} {x : Nat} :
    ∀ (fuel : Nat) {k : Kernel} {r : InfiniteRing} {i total : Nat},
      Doc.flood t fuel k r i total = .ok (some ((k', r'), x)) → r.Stays r'
  | 0, _, _, _, _, h => by cases h
  | fuel + 1, _, _, _, _, h => by
    simp only [Doc.flood, bind, Except.bind] at h
    split at h
    · split at h
      · cases h
      rename_i hy
      split at h
      · cases h
      split at h
      · cases h
      exact (InfiniteRing.writeFmt_stays _ hy).trans (Doc.flood_stays fuel h)
    · cases h; exact .refl _

theorem Doc.infiniteBody_stays {t : Target} {valid : List Byte → Bool} {fuel : Nat} {k k' : Kernel}
    {r r' : InfiniteRing} {x : IoResult Unit}
    (h : Doc.infiniteBody t valid fuel k r = .ok (some ((k', r'), x))) : r.Stays r' := by
  have rl : ∀ {k : Kernel} {r r' : InfiniteRing} {got : List Byte} {x : IoResult Nat},
      readLine (fun r => InfiniteRing.readUntil t k 10 (fuel + 2) r []) valid r [] = .ok (some (r', got, x)) →
      r.Stays r' := by
    intro k r r' got x h
    simp only [readLine, bind, Except.bind] at h
    split at h
    · cases h
    rename_i hy
    split at h
    · cases h
    · split at h <;> (cases h; exact InfiniteRing.readUntil_stays _ hy)
  simp only [Doc.infiniteBody, bind, Except.bind] at h
  split at h
  · cases h
  rename_i h1
  split at h
  · cases h
  split at h
  · cases h
  split at h
  · cases h
  split at h
  · cases h
  rename_i h2
  have s2 := (Doc.flood_stays _ h1).trans (InfiniteRing.consume_stays h2)
  split at h
  · cases h
  rename_i h3
  split at h
  · cases h
  · cases h; exact s2.trans (rl h3)
  have s3 := s2.trans (rl h3)
  repeat' split at h
  all_goals first | (cases h; exact s3) | cases h

/-! ### Making and dropping -/

/-- Making a ring ends, well or badly; if badly, nothing is left of it; if well, dropping the ring leaves
nothing of it. -/
theorem winRing_ends {t : Target} {s : Vmap.Win} (w : WinWf t s) {hint : Nat} (pos : 0 < hint)
    (sane : 2 * (hint + s.gran) < t.lim) :
    ∃ len s' r, s.sizeAlloc.round t hint = .ok len ∧ s.mapRing t len = .ok (s', r) ∧
      (∀ e, r = .error e → WinGone s s') ∧
      ∀ p, r = .ok p → ∃ s2, s'.unmapRing t p len = (s2, .ok ()) ∧ WinGone s s2 := by
  obtain ⟨a, b, -, hb, -, hbits⟩ := w.sizes
  have hr : s.sizeAlloc.round t hint = .ok ((hint + 2 ^ b - 1) / 2 ^ b * 2 ^ b) := by
    rw [Win.sizeAlloc, Win.systemInfo, hb]
    exact round_eq (by omega) (by rw [← hb]; omega)
  have hle := Nat.div_mul_le_self (hint + 2 ^ b - 1) (2 ^ b)
  obtain ⟨g1, g2, -⟩ := isRoundUp_div (u := 2 ^ b) (len := hint) (Nat.two_pow_pos b)
  rw [hb] at sane
  have hp2 := Nat.two_pow_pos b
  obtain ⟨s', r, h1, h2, -, -, h4, h5⟩ := C31_map_ring t w (len := (hint + 2 ^ b - 1) / 2 ^ b * 2 ^ b)
    (by omega) (by omega)
  refine ⟨_, s', r, hr, h1, fun e he => ⟨(h5 e he).1, h2⟩, fun p hp => ?_⟩
  obtain ⟨-, s2, u, u1, u2⟩ := h4 p hp
  exact ⟨s2, u, u1, u2⟩

/-- A new ring on Windows, or an error. -/
theorem winRing_new {t : Target} {s : Vmap.Win} (w : WinWf t s) (laid : WinLaid t s) {hint : Nat} (pos : 0 < hint)
    (sane : 2 * (hint + s.gran) < t.lim) {mem : Vmap.Win → Kernel} (hm : WinMemory t mem) :
    ∃ s' res, s.ringNew t hint = .ok (s', res) ∧ (∀ e, res = .error e → WinGone s s') ∧
      ∀ r, res = .ok r → WinWf t s' ∧ WinLaid t s' ∧ RingAt t (mem s') r 0 ∧ s'.gran = s.gran ∧
        IsRoundUp s.gran hint (SeqWrite.writeCapacity r) ∧ ∀ r', r.Stays r' → WinGone s (s'.dropRing t r') := by
  obtain ⟨len, s', res, hr, hmr, bad, good⟩ := winRing_ends w pos sane
  cases res with
  | error e =>
    refine ⟨s', .error e, by simp only [Win.ringNew, hr, hmr, bind, Except.bind]; rfl,
      fun _ _ => bad e rfl, fun r h => by cases h⟩
  | ok p =>
    have made : s.ringNew t hint = .ok (s', .ok { ptr := p, len, rpos := 0, wpos := 0 }) := by
      simp only [Win.ringNew, hr, hmr, bind, Except.bind]; rfl
    refine ⟨s', _, made, (fun e h => by cases h), fun r h => ?_⟩
    injection h with h
    subst h
    obtain ⟨h1, h2, h3, h4, h5, h6⟩ := C91_windows_ring t w hint (by omega) _ made
    obtain ⟨mw, obj, sh⟩ := hm s' (h5 laid)
    refine ⟨h4, h5 laid, h6 _ obj mw sh.mem, h3.gran, h1, fun r' st => ?_⟩
    obtain ⟨s2, u, g⟩ := good p rfl
    obtain ⟨st1, st2⟩ := st
    simp only at st1 st2
    show WinGone s (s'.unmapRing t r'.ptr r'.len).1
    rw [st1, st2, u]
    exact g

/-- A new infinite ring on Windows, or an error. -/
theorem winInf_new {t : Target} {s : Vmap.Win} (w : WinWf t s) (laid : WinLaid t s) {hint : Nat} (pos : 0 < hint)
    (sane : 2 * (hint + s.gran) < t.lim) {mem : Vmap.Win → Kernel} (hm : WinMemory t mem) :
    ∃ s' res, s.infNew t hint = .ok (s', res) ∧ (∀ e, res = .error e → WinGone s s') ∧
      ∀ r, res = .ok r → InfAt t (mem s') r 0 ∧ IsRoundUp s.gran hint (SeqWrite.writeCapacity r) ∧
        ∀ r', r.Stays r' → WinGone s (s'.dropInf t r') := by
  obtain ⟨len, s', res, hr, hmr, bad, good⟩ := winRing_ends w pos sane
  cases res with
  | error e =>
    refine ⟨s', .error e, by simp only [Win.infNew, hr, hmr, bind, Except.bind]; rfl,
      fun _ _ => bad e rfl, fun r h => by cases h⟩
  | ok p =>
    have made : s.infNew t hint = .ok (s', .ok { ptr := p, len, rlen := 0, wpos := 0 }) := by
      simp only [Win.infNew, hr, hmr, bind, Except.bind]; rfl
    refine ⟨s', _, made, (fun e h => by cases h), fun r h => ?_⟩
    injection h with h
    subst h
    obtain ⟨h1, h2, h3, h4, h5, h6⟩ := C91_windows_infinite t w hint (by omega) _ made
    obtain ⟨mw, obj, sh⟩ := hm s' (h5 laid)
    refine ⟨h6 _ obj mw sh.mem, h1, fun r' st => ?_⟩
    obtain ⟨s2, u, g⟩ := good p rfl
    obtain ⟨st1, st2⟩ := st
    simp only at st1 st2
    show WinGone s (s'.unmapRing t r'.ptr r'.len).1
    rw [st1, st2, u]
    exact g

/-! ### Flushing into the writers of the examples -/

/-- The writer of `into_inner`'s example takes less than the text. -/
theorem flush_erring_short {t : Target} {k : Kernel} {buf : Ring} {text sp : List Byte} {kind : IoKind}
    (hk : kind ≠ .interrupted) {limit : Nat} (v : View t k buf text.length text sp) (lt : limit < text.length)
    (fuel : Nat) : ∃ buf' sp', BufWriter.flushBuf (Doc.erring kind) t k (fuel + 3) ⟨buf, limit, false⟩ =
        .ok (⟨buf', 0, false⟩, .err (.ofKind kind)) ∧ View t k buf' text.length (text.drop limit) sp' ∧
      buf.Stays buf' := by
  have hn0 : ∀ q : List Byte, q.length ≠ 0 → (q.length == 0) = false := fun q h => by simpa using h
  by_cases hl0 : limit = 0
  · refine ⟨buf, sp, ?_, by rw [hl0]; exact v, .refl _⟩
    have hw : (Doc.erring kind).write limit text = (limit, .err (.ofKind kind)) := by
      simp [Doc.erring, hl0]
    rw [BufWriter.flushBuf]
    simp only [v.isEmpty_eq, hn0 text (by omega), bind, Except.bind,
      Bool.false_eq_true, if_false, BufWriter.buffered, v.readSlice, hw]
    rw [if_neg (show ¬ (IoError.ofKind kind).kind = .interrupted from hk), hl0]
    rfl
  · have hm : min limit text.length = limit := by omega
    obtain ⟨m, hm1⟩ : ∃ m, limit = m + 1 := ⟨limit - 1, by omega⟩
    have hw : (Doc.erring kind).write limit text = (0, .ok limit) := by
      simp only [Doc.erring, hm]
      rw [if_neg hl0, Nat.sub_self]
    obtain ⟨r3, e3, v3, l3, p3⟩ := v.consume limit
    refine ⟨r3, _, ?_, v3, p3, l3⟩
    have hw2 : (Doc.erring kind).write 0 (text.drop limit) = (0, .err (.ofKind kind)) := by
      simp [Doc.erring]
    rw [BufWriter.flushBuf]
    simp only [v.isEmpty_eq, hn0 text (by omega), bind, Except.bind,
      Bool.false_eq_true, if_false, BufWriter.buffered, v.readSlice, hw]
    rw [hm1]
    simp only [← hm1, e3]
    rw [BufWriter.flushBuf]
    simp only [v3.isEmpty_eq, hn0 (text.drop limit) (by simp; omega), bind, Except.bind,
      Bool.false_eq_true, if_false, BufWriter.buffered, v3.readSlice, hw2]
    rw [if_neg (show ¬ (IoError.ofKind kind).kind = .interrupted from hk)]
    rfl

/-- The writer of `into_inner`'s example takes all of the text. -/
theorem flush_erring_all {t : Target} {k : Kernel} {buf : Ring} {text sp : List Byte} {kind : IoKind}
    {limit : Nat} (v : View t k buf text.length text sp) (le : text.length ≤ limit) (fuel : Nat) :
    ∃ buf', BufWriter.flushBuf (Doc.erring kind) t k (fuel + 3) ⟨buf, limit, false⟩ =
        .ok (⟨buf', limit - text.length, false⟩, .ok ()) ∧ buf.Stays buf' := by
  by_cases h0 : text.length = 0
  · obtain rfl := List.eq_nil_of_length_eq_zero h0
    refine ⟨buf, ?_, .refl _⟩
    rw [BufWriter.flushBuf]
    simp only [v.isEmpty_eq, bind, Except.bind, List.length_nil, beq_self_eq_true,
      if_true, pure, Except.pure, Nat.sub_zero]
  · have hm : min limit text.length = text.length := by omega
    obtain ⟨m, hm1⟩ : ∃ m, text.length = m + 1 := ⟨text.length - 1, by omega⟩
    have hw : (Doc.erring kind).write limit text = (limit - text.length, .ok text.length) := by
      simp only [Doc.erring, hm]
      rw [if_neg h0]
    obtain ⟨r3, e3, v3, l3, p3⟩ := v.consume text.length
    rw [List.drop_length] at v3
    refine ⟨r3, ?_, p3, l3⟩
    rw [BufWriter.flushBuf]
    have hq : (text.length == 0) = false := by simpa using h0
    simp only [v.isEmpty_eq, hq, bind, Except.bind,
      Bool.false_eq_true, if_false, BufWriter.buffered, v.readSlice, hw]
    rw [hm1]
    simp only [← hm1, e3]
    rw [BufWriter.flushBuf]
    simp only [v3.isEmpty_eq, bind, Except.bind, List.length_nil, beq_self_eq_true,
      if_true, pure, Except.pure]

/-- A new buffered writer on Windows, or an error. -/
theorem winWriter_new {σ : Type} {t : Target} {s : Vmap.Win} (w : WinWf t s) (laid : WinLaid t s) {cap : Nat}
    (pos : 0 < cap) (sane : 2 * (cap + s.gran) < t.lim) {mem : Vmap.Win → Kernel} (hm : WinMemory t mem) (inner : σ) :
    ∃ s' res, BufWriter.winNew t s inner cap = .ok (s', res) ∧ (∀ e, res = .error e → WinGone s s') ∧
      ∀ b, res = .ok b → WinWf t s' ∧ WinLaid t s' ∧ s'.gran = s.gran ∧ b = ⟨b.buf, inner, false⟩ ∧
        (∃ sp, View t (mem s') b.buf 0 [] sp ∧ cap ≤ sp.length) ∧
        ∀ r', b.buf.Stays r' → WinGone s (s'.dropRing t r') := by
  obtain ⟨s', res, e1, bad, good⟩ := winRing_new w laid pos sane hm
  cases res with
  | error e =>
    exact ⟨s', .error e, by simp only [BufWriter.winNew, e1, bind, Except.bind]; rfl, fun _ _ => bad e rfl,
      fun b h => by cases h⟩
  | ok r =>
    refine ⟨s', .ok (.fromParts inner r), by simp only [BufWriter.winNew, e1, bind, Except.bind]; rfl,
      (fun e h => by cases h), fun b h => ?_⟩
    injection h with h
    subst h
    obtain ⟨g1, g2, g3, g4, g5, g6⟩ := good r rfl
    refine ⟨g1, g2, g4, rfl, ?_, g6⟩
    obtain ⟨q, sp, v⟩ := g3.view
    have hq := g3.empty
    rw [v.fillBuf] at hq
    injection hq with hq
    subst hq
    have := v.len
    have := g5.2.1
    simp only [SeqWrite.writeCapacity, List.length_nil] at *
    exact ⟨sp, v, by show cap ≤ _; omega⟩

end Vmap
