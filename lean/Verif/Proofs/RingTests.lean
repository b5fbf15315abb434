import Verif.Model.RingTests
import Verif.Spec.RingTests
import Verif.Proofs.WinDoc
import Verif.Props.Bytes
import Verif.Props.Size
/-
Helper lemmas for C163.
-/
namespace Vmap
open Kernel Spec

namespace Tests

/-- Nothing but memory changed, and the ring is where it was. -/
def Near (k : Kernel) (r : Ring) (k' : Kernel) (r' : Ring) : Prop := SameButData k k' ∧ r.Stays r'

theorem Near.refl (k : Kernel) (r : Ring) : Near k r k r := ⟨.refl _, .refl _⟩

theorem Near.trans {k k1 k2 : Kernel} {r r1 r2 : Ring} (h : Near k r k1 r1) (h' : Near k1 r1 k2 r2) :
    Near k r k2 r2 := ⟨h.1.trans h'.1, h.2.trans h'.2⟩

variable {t : Target}

/-- `write_all` of a text that fits. -/
theorem writeAll_view {k : Kernel} {r : Ring} {n : Nat} {q sp : List Byte} (v : View t k r n q sp) (bs : List Byte)
    (fit : bs.length ≤ sp.length) (below : n + bs.length < posBound t r.len) :
    ∃ k' r' sp', r.writeAll t k bs = .ok ((k', r'), .ok ()) ∧ View t k' r' (n + bs.length) (q ++ bs) sp' ∧
      Near k r k' r' := by
  by_cases hb : bs.length = 0
  · obtain rfl := List.eq_nil_of_length_eq_zero hb
    exact ⟨k, r, sp, by rw [Ring.writeAll, dif_pos hb], by simpa using v, .refl _ _⟩
  obtain ⟨k1, r1, e1, v1, l1, p1⟩ := v.write bs (by rw [Nat.min_eq_left fit]; exact below)
  rw [Nat.min_eq_left fit] at e1 v1
  rw [List.take_of_length_le fit] at v1
  refine ⟨k1, r1, _, ?_, v1, ?_, p1, l1⟩
  · rw [Ring.writeAll, dif_neg hb]
    simp only [e1]
    rw [dif_neg hb, if_neg (by omega), List.drop_length, Ring.writeAll, dif_pos List.length_nil]
  · obtain ⟨o, h1⟩ := v.rep
    obtain ⟨k', r', e, -, -, -, -, sd, -⟩ := h1.write_eq bs (by simp only; rw [Nat.min_eq_left fit]; exact below)
    rw [e1] at e
    injection e with e
    injection e with e _
    subst e
    exact sd

theorem writes_view : ∀ (ps : List (List Byte)) {k : Kernel} {r : Ring} {n : Nat} {q sp : List Byte},
    View t k r n q sp → ps.flatten.length ≤ sp.length → n + ps.flatten.length < posBound t r.len →
    ∃ k' r' sp', writes t k r ps = .ok (k', r') ∧ View t k' r' (n + ps.flatten.length) (q ++ ps.flatten) sp' ∧
      Near k r k' r'
  | [], k, r, n, q, sp, v, _, _ => ⟨k, r, sp, rfl, by simpa using v, .refl _ _⟩
  | p :: ps, k, r, n, q, sp, v, fit, below => by
    simp only [List.flatten_cons, List.length_append] at fit below ⊢
    obtain ⟨k1, r1, sp1, e1, v1, s1⟩ := writeAll_view v p (by omega) (by omega)
    have l0 := v.len
    have l1 := v1.len
    have hl := s1.2.2
    simp only [List.length_append] at l1
    obtain ⟨k2, r2, sp2, e2, v2, s2⟩ := writes_view ps v1 (by omega) (by rw [hl]; omega)
    refine ⟨k2, r2, sp2, ?_, ?_, s1.trans s2⟩
    · simp only [writes, e1, bind, Except.bind, e2]
    · rw [← Nat.add_assoc, ← List.append_assoc]; exact v2

theorem consume_view {k : Kernel} {r : Ring} {n : Nat} {q sp : List Byte} (v : View t k r n q sp) (m : Nat) :
    ∃ r' sp', r.consume t m = .ok r' ∧ View t k r' n (q.drop m) sp' ∧ Near k r k r' := by
  obtain ⟨r', e, v', l, p⟩ := v.consume m
  exact ⟨r', _, e, v', .refl _, p, l⟩

theorem readable_view {k : Kernel} {r : Ring} {n : Nat} {q sp : List Byte} (v : View t k r n q sp) {m : Nat}
    (h : q.length = m) : readable t r m = .ok () := by
  simp only [readable, v.readLen, bind, Except.bind, h]
  exact Doc.assert_true (by simp)

theorem writable_view {k : Kernel} {r : Ring} {n : Nat} {q sp : List Byte} (v : View t k r n q sp) {m : Nat}
    (h : sp.length = m) : writable t r m = .ok () := by
  simp only [writable, v.writeLen, bind, Except.bind, h]
  exact Doc.assert_true (by simp)

theorem slice_view {k : Kernel} {r : Ring} {n : Nat} {q sp : List Byte} (v : View t k r n q sp) (m : Nat) :
    readSliceBytes t k r m = .ok (q.take m) := by
  obtain ⟨o, h⟩ := v.rep
  exact h.readSlice_eq m

/-- A new ring: nothing readable. -/
theorem new_view {k : Kernel} {r : Ring} (h : RingAt t k r 0) :
    ∃ sp, View t k r 0 [] sp ∧ sp.length = SeqWrite.writeCapacity r ∧ 2 * SeqWrite.writeCapacity r ≤ t.lim := by
  obtain ⟨q, sp, v⟩ := h.view
  have hq := h.empty
  rw [v.fillBuf] at hq
  injection hq with hq
  subst hq
  have := v.len
  obtain ⟨o, rep⟩ := v.rep
  have hm := rep.mirror.fits
  simp only [SeqWrite.writeCapacity, List.length_nil] at *
  exact ⟨sp, v, by omega, by omega⟩

theorem flatten_replicate (n : Nat) (p : List Byte) : (List.replicate n p).flatten.length = n * p.length := by
  simp

/-! ### The bodies -/

theorem size_runs {k : Kernel} {r : Ring} (h : RingAt t k r 0) {b : Nat} (hb : b < t.width.bits)
    (cap : SeqWrite.writeCapacity r = 2 ^ b) (lo : 100 ≤ 2 ^ b) :
    ∃ k' r' n, size t (2 ^ b) k r = .ok (k', r') ∧ RingAt t k' r' n ∧ Near k r k' r' := by
  obtain ⟨sp, v, hsp, hlim⟩ := new_view h
  have room := Doc.room h (by omega)
  have hs : (Size.withSize (2 ^ b)).size t 1 = .ok (2 ^ b) := by
    have := C03_size t b 1 hb (by omega)
    rwa [Nat.one_mul] at this
  have hl : (test : List Byte).length = 4 := rfl
  obtain ⟨k1, r1, sp1, e1, v1, s1⟩ := writes_view [test] v (by simp [hl]; omega)
    (by simp only [SeqWrite.writeCapacity] at room; simp [hl]; omega)
  have cap1 : SeqWrite.writeCapacity r1 = 2 ^ b := by rw [← cap]; exact s1.2.2
  have l1 := v1.len
  have hr : r1.len = 2 ^ b := cap1
  refine ⟨k1, r1, _, ?_, v1.at_, s1⟩
  have hat : Doc.assert true = .ok () := rfl
  simp only [size, hs, bind, Except.bind, cap, beq_self_eq_true, hat, readable_view v (m := 0) rfl,
    writable_view v (hsp.trans cap), e1, cap1, readable_view v1 (m := 4) (by simp [hl]),
    subU_ok (show 4 ≤ 2 ^ b by omega), writable_view v1 (m := 2 ^ b - 4) (by simp [hl] at l1; omega)]
  rfl

theorem wrap_runs {k : Kernel} {r : Ring} (h : RingAt t k r 0) (lo : 100 ≤ SeqWrite.writeCapacity r) :
    ∃ k' r' n, wrap t k r = .ok (k', r') ∧ RingAt t k' r' n ∧ Near k r k' r' := by
  obtain ⟨sp, v, hsp, hlim⟩ := new_view h
  have room := Doc.room h lo
  have hw : (word : List Byte).length = 23 := rfl
  generalize hC : SeqWrite.writeCapacity r = C at *
  have hCl : r.len = C := hC
  generalize hn : C / 23 = n
  have hn1 : n * 23 ≤ C := by omega
  have hn2 : 4 ≤ n := by omega
  have fl : (List.replicate n word).flatten.length = n * 23 := flatten_replicate n word
  obtain ⟨k1, r1, sp1, e1, v1, s1⟩ := writes_view (List.replicate n word) v (by omega) (by rw [hCl]; omega)
  rw [List.nil_append] at v1
  obtain ⟨r2, sp2, e2, v2, s2⟩ := consume_view v1 ((n - 1) * 23)
  have hq2 : (List.replicate n word).flatten.drop ((n - 1) * 23) = word := by
    obtain ⟨m, rfl⟩ : ∃ m, n = m + 1 := ⟨n - 1, by omega⟩
    rw [List.replicate_succ', List.flatten_append, show (m + 1 - 1) * 23 = (List.replicate m word).flatten.length from
      (flatten_replicate m word).symm, List.drop_left]
    simp
  rw [hq2] at v2
  have l2 := v2.len
  have p2 : r2.len = C := (s2.2.2.trans s1.2.2).trans hCl
  have fw : [word].flatten.length = 23 := rfl
  obtain ⟨k3, r3, sp3, e3, v3, s3⟩ := writes_view [word] v2 (by omega) (by rw [p2]; omega)
  have fw2 : word ++ [word].flatten = word ++ word := rfl
  rw [fw2] at v3
  refine ⟨k3, r3, _, ?_, v3.at_, (s1.trans s2).trans s3⟩
  have hat : Doc.assert true = .ok () := rfl
  have hww : (word ++ word).length = 46 := rfl
  simp only [wrap, hC, hw, hn, bind, Except.bind, e1, mulU_ok (show n * 23 < t.lim by omega),
    readable_view v1 fl, subU_ok (show 1 ≤ n by omega), mulU_ok (show (n - 1) * 23 < t.lim by omega), e2,
    readable_view v2 hw, e3, mulU_ok (show 2 * 23 < t.lim by omega), readable_view v3 (m := 2 * 23) hww,
    slice_view v3, List.take_length, beq_self_eq_true, hat]
  rfl

theorem pattern_succ (little : Bool) (val n : Nat) :
    pattern little val (n + 1) = numBytes little 2 (val % 65536) :: pattern little (val + 1) n := by
  simp [pattern, List.range'_succ]

theorem pattern_length (little : Bool) : ∀ (n val : Nat), (pattern little val n).flatten.length = n * 2
  | 0, _ => rfl
  | n + 1, val => by
    rw [pattern_succ, List.flatten_cons, List.length_append, pattern_length little n, numBytes_length]; omega

theorem compare_runs (little : Bool) {k : Kernel} : ∀ (m : Nat) {r : Ring} {val n : Nat} {sp : List Byte} (bad : Bool),
    View t k r n (pattern little val m).flatten sp →
    ∃ r' sp', compare t k little m r val bad = .ok (r', bad) ∧ View t k r' n [] sp' ∧ Near k r k r'
  | 0, r, _, _, sp, bad, v => ⟨r, sp, rfl, v, .refl _ _⟩
  | m + 1, r, val, n, sp, bad, v => by
    rw [pattern_succ, List.flatten_cons] at v
    have hl := numBytes_length little 2 (val % 65536)
    obtain ⟨r1, sp1, e1, v1, s1⟩ := consume_view v 2
    have hs := slice_view v 2
    rw [List.take_append_of_le_length (by omega), List.take_of_length_le (by omega)] at hs
    rw [List.drop_append_of_le_length (by omega), List.drop_eq_nil_of_le (by omega), List.nil_append] at v1
    obtain ⟨r2, sp2, e2, v2, s2⟩ := compare_runs little m bad v1
    refine ⟨r2, sp2, ?_, v2, s1.trans s2⟩
    simp only [compare, hs, bind, Except.bind, hl, Nat.lt_irrefl, if_false, e1, bne_self_eq_false,
      Bool.or_false, e2]

theorem sizes_runs (little : Bool) {k : Kernel} {r : Ring} (h : RingAt t k r 0)
    (lo : 100 ≤ SeqWrite.writeCapacity r) :
    ∃ k' r' n, sizes t little k r = .ok (k', r') ∧ RingAt t k' r' n ∧ Near k r k' r' := by
  obtain ⟨sp, v, hsp, hlim⟩ := new_view h
  have room := Doc.room h lo
  generalize hC : SeqWrite.writeCapacity r = C at *
  have hCl : r.len = C := hC
  have fl := pattern_length little (C / 2) 4097
  obtain ⟨k1, r1, sp1, e1, v1, s1⟩ := writes_view (pattern little 4097 (C / 2)) v (by omega) (by rw [hCl]; omega)
  rw [List.nil_append] at v1
  obtain ⟨r2, sp2, e2, v2, s2⟩ := compare_runs little (C / 2) false v1
  refine ⟨k1, r2, _, ?_, v2.at_, s1.trans s2⟩
  have hat : Doc.assert true = .ok () := rfl
  simp only [sizes, hC, bind, Except.bind, e1, mulU_ok (show C / 2 * 2 < t.lim by omega), readable_view v1 fl, e2,
    Bool.not_false, hat]
  rfl

theorem sane_view {k : Kernel} {r : Ring} {n : Nat} {q sp : List Byte} (v : View t k r n q sp) :
    sane t k r q sp.length = .ok () := by
  obtain ⟨a, ha⟩ := v.chunkMut
  have hat : Doc.assert true = .ok () := rfl
  simp only [sane, Ring.remaining, v.readLen, bind, Except.bind, v.chunk, Ring.remainingMut, v.writeLen, ha,
    beq_self_eq_true, hat]

theorem sane_panics {k : Kernel} {r : Ring} {n : Nat} {q sp : List Byte} (v : View t k r n q sp) {free : Nat}
    (ne : sp.length ≠ free) : sane t k r q free = .error .panic := by
  have hat : Doc.assert true = .ok () := rfl
  have hf : Doc.assert (sp.length == free) = .error .panic := Doc.assert_false (by simpa using ne)
  simp only [sane, Ring.remaining, v.readLen, bind, Except.bind, v.chunk, Ring.remainingMut, v.writeLen,
    beq_self_eq_true, hat, hf]

theorem putSlice_near {k : Kernel} {r : Ring} {n : Nat} {q sp : List Byte} (h : View t k r n q sp) {bs : List Byte}
    (ne : bs ≠ []) (fuel : Nat) (hl : bs.length ≤ sp.length) (hb : n + bs.length < posBound t r.len) :
    ∃ k' r', r.putSlice t (fuel + 1) k bs = .ok (some (k', r')) ∧
      View t k' r' (n + bs.length) (q ++ bs) (sp.drop bs.length) ∧ Near k r k' r' := by
  obtain ⟨a, k', r', h1, h2, h3, v, l, -⟩ := h.put bs hl hb
  have sd : SameButData k k' := by
    obtain ⟨o, rep⟩ := h.rep
    obtain ⟨k1, e, sd, -⟩ := rep.poked bs hl
    have ha : asWriteSlice t r t.usizeMax = .ok (a, sp.length) := h1
    rw [rep.asWriteSlice_eq] at ha
    injection ha with ha
    injection ha with ha _
    rw [← ha, e] at h2
    cases h2
    exact sd
  refine ⟨k', r', ?_, v, sd, Ring.feed_stays h3⟩
  simp only [Ring.putSlice, Ring.remainingMut, h.writeLen, bind, Except.bind]
  rw [if_neg (by omega)]
  show Ring.putLoop t (fuel + 1) k r bs = _
  cases bs with
  | nil => exact absurd rfl ne
  | cons b bs =>
    simp only [Ring.putLoop, h1, bind, Except.bind, Nat.min_eq_right hl, List.take_length, h2, h3,
      List.drop_length]

theorem sanity_runs {k : Kernel} {r : Ring} (h : RingAt t k r 0) (lo : 100 ≤ SeqWrite.writeCapacity r) :
    ∃ k' r' n, bytesSanity t (SeqWrite.writeCapacity r) k r = .ok (k', r') ∧ RingAt t k' r' n ∧ Near k r k' r' := by
  obtain ⟨sp, v, hsp, hlim⟩ := new_view h
  have room := Doc.room h lo
  generalize hC : SeqWrite.writeCapacity r = C at *
  have hCl : r.len = C := hC
  have hh : (hello : List Byte).length = 11 := rfl
  obtain ⟨k1, r1, e1, v1, s1⟩ := putSlice_near v (bs := hello) (by decide) 10 (by omega) (by rw [hCl]; omega)
  rw [List.nil_append] at v1
  obtain ⟨r2, e2, v2, l2, p2⟩ := v1.consume 6
  refine ⟨k1, r2, _, ?_, v2.at_, s1.trans ⟨.refl _, p2, l2⟩⟩
  have a0 := sane_view v
  have a1 := sane_view v1
  have a2 := sane_view v2
  rw [hsp] at a0
  rw [List.length_drop, hsp, hh] at a1
  rw [show (sp.drop hello.length ++ hello.take 6).length = C - 5 by
    simp only [List.length_append, List.length_drop, List.length_take, hh]; omega] at a2
  have e2' : r1.advance t 6 = .ok r2 := e2
  simp only [bytesSanity, a0, bind, Except.bind, hh, e1, subU_ok (show 11 ≤ C by omega), a1, e2',
    subU_ok (show 5 ≤ C by omega), a2]
  rfl

theorem sanity_panics {k : Kernel} {r : Ring} (h : RingAt t k r 0) {m : Nat} (ne : SeqWrite.writeCapacity r ≠ m) :
    bytesSanity t m k r = .error .panic := by
  obtain ⟨sp, v, hsp, -⟩ := new_view h
  simp only [bytesSanity, sane_panics v (free := m) (by omega), bind, Except.bind]

/-! The infinite ring. -/

/-- Nothing but memory changed, and the ring is where it was. -/
def InfNear (k : Kernel) (r : InfiniteRing) (k' : Kernel) (r' : InfiniteRing) : Prop := SameButData k k' ∧ r.Stays r'

theorem writeFmt_keeps : ∀ (ps : List (List Byte)) {k k' : Kernel} {r r' : InfiniteRing} {n : Nat},
    InfAt t k r n → n + ps.flatten.length < posBound t r.len → r.writeFmt t k ps = .ok (k', r') → SameButData k k'
  | [], _, _, _, _, _, _, _, h => by cases h; exact .refl _
  | p :: ps, k, _, r, _, n, a, below, h => by
    simp only [List.flatten_cons, List.length_append] at below
    obtain ⟨o, s, h1, h2, -⟩ := a.inv
    have hb : n + min p.length r.len < posBound t r.len := by omega
    obtain ⟨k1, r1, e, -, p1, p2, sd, -⟩ := inf_writeAll h1 p (by rw [h1.total, h2]; exact hb)
    simp only [InfiniteRing.writeFmt, e, bind, Except.bind] at h
    exact sd.trans (writeFmt_keeps ps (InfAt.all a hb e) (by rw [p2]; omega) h)

theorem words_drop {a m : Nat} : ∀ (n : Nat), (List.replicate (a + n) word).flatten.drop (a * 23 + m) =
    (List.replicate n word).flatten.drop m := by
  intro n
  rw [← List.replicate_append_replicate, List.flatten_append, ← List.drop_drop, show a * 23 = (List.replicate a word).flatten.length from
    (flatten_replicate a word).symm, List.drop_left]

theorem two_words {n b : Nat} (hb : b ≤ 23) :
    ((List.replicate (n + 2) word).flatten.drop b).take 10 = ((word ++ word).drop b).take 10 := by
  rw [show List.replicate (n + 2) word = word :: word :: List.replicate n word from rfl, List.flatten_cons,
    List.flatten_cons, ← List.append_assoc, List.drop_append_of_le_length (by simp [show word.length = 23 from rfl]; omega),
    List.take_append_of_le_length (by simp [show word.length = 23 from rfl]; omega)]

/-- What is in the ring after the words were written. -/
theorem overwritten {C : Nat} (lo : 100 ≤ C) :
    (lastN C (List.replicate (2 * C / 23 + 1) word).flatten).take 10 =
      ((word ++ word).drop (23 - C % 23)).take 10 := by
  have hl := flatten_replicate (2 * C / 23 + 1) word
  rw [show word.length = 23 from rfl] at hl
  rw [lastN, hl]
  by_cases hd : C % 23 = 0
  · rw [hd, show (2 * C / 23 + 1) = (2 * C / 23 + 1 - C / 23) + (C / 23 - 2 + 2) by omega,
      show (2 * C / 23 + 1 - C / 23 + (C / 23 - 2 + 2)) * 23 - C = (2 * C / 23 + 1 - C / 23) * 23 + 0 by omega,
      words_drop, two_words (by omega)]
    rfl
  · rw [show (2 * C / 23 + 1) = (2 * C / 23 + 1 - C / 23 - 1) + (C / 23 - 1 + 2) by omega,
      show (2 * C / 23 + 1 - C / 23 - 1 + (C / 23 - 1 + 2)) * 23 - C =
        (2 * C / 23 + 1 - C / 23 - 1) * 23 + (23 - C % 23) by omega,
      words_drop, two_words (by omega)]

theorem overwrite_runs {k : Kernel} {r : InfiniteRing} (h : InfAt t k r 0) (lo : 100 ≤ SeqWrite.writeCapacity r)
    (hi : SeqWrite.writeCapacity r < 2 ^ 30) :
    ∃ k' r' n, overwrite t k r = .ok (k', r') ∧ InfAt t k' r' n ∧ InfNear k r k' r' := by
  have hlim : 2 ^ 32 ≤ t.lim := by
    rcases t with ⟨w, c⟩; cases w <;> simp [Target.lim, Width.bits]
  have h64 := t.lim_le_64
  generalize hC : SeqWrite.writeCapacity r = C at *
  have hw : (word : List Byte).length = 23 := rfl
  have fl := flatten_replicate (2 * C / 23 + 1) word
  rw [hw] at fl
  have hb : 2 ^ 32 ≤ posBound t C := by
    unfold posBound
    split
    · exact Nat.le_trans hlim h64
    · exact hlim
  have hb1 : 0 + (List.replicate (2 * C / 23 + 1) word).flatten.length < posBound t r.len := by
    rw [show r.len = C from hC]; omega
  obtain ⟨k1, r1, m, e1, f1, a1, -, c1⟩ := C130_infinite_write_fmt t k r 0 h [] h.empty
    (List.replicate (2 * C / 23 + 1) word) (by rw [hC]; omega)
  rw [hC, List.nil_append] at f1
  rw [hC] at c1
  obtain ⟨q, v⟩ := a1.view
  have hq := v.fillBuf
  rw [f1] at hq
  injection hq with hq
  subst hq
  have hql : (lastN C (List.replicate (2 * C / 23 + 1) word).flatten).length = C := by
    rw [lastN, List.length_drop, fl]; omega
  have ⟨hr, hs⟩ : r1.readLen t = .ok C ∧ readSliceBytes t k1 r1 10 =
      .ok ((lastN C (List.replicate (2 * C / 23 + 1) word).flatten).take 10) := by
    obtain ⟨o, old, rep⟩ := v.rep
    refine ⟨by rw [rep.readLen_eq, hql], ?_⟩
    simp only [readSliceBytes, rep.asReadSlice_eq, bind, Except.bind, rep.load_read _ (Nat.min_le_left _ _)]
    rw [hql, Nat.min_eq_right (by omega)]
  refine ⟨k1, r1, m, ?_, a1, writeFmt_keeps _ h hb1 e1, InfiniteRing.writeFmt_stays _ e1⟩
  have hat : Doc.assert true = .ok () := rfl
  have hww : (word ++ word).length = 46 := rfl
  rw [overwritten lo] at hs
  simp only [overwrite, hC, bind, Except.bind, mulU_ok (show 2 * C < t.lim by omega), hw,
    addU_ok (show 2 * C / 23 + 1 < t.lim by omega), e1, hr, c1, beq_self_eq_true, hat,
    subU_ok (show C % 23 ≤ 23 by omega), hs, addU_ok (show 23 - C % 23 + 10 < t.lim by omega), hww]
  rw [if_neg (by omega)]
  rfl

/-! ### Whole tests -/

section
variable {k : Kernel}

theorem ring_runs (wf : Wf t k) {hint : Nat} (fits : 2 * (hint + k.page) ≤ t.lim)
    {body : Kernel → Ring → Exec (Kernel × Ring)}
    (runs : ∀ k1 r, RingAt t k1 r 0 → IsRoundUp k.page hint (SeqWrite.writeCapacity r) →
      ∃ k2 r2 n, body k1 r = .ok (k2, r2) ∧ RingAt t k2 r2 n ∧ Near k1 r k2 r2) :
    ∃ k1 res, Ring.make t k hint = .ok (k1, res) ∧
      match res with
      | .error _ => ring t hint body k = .error .panic ∧ SameWorld k k1
      | .ok _ => ∃ k', ring t hint body k = .ok k' ∧ Cleared t k k' := by
  have hpos := wf.page_pos
  have hf : RingFits t k hint := ⟨by omega, fun _ => fits⟩
  obtain ⟨k1, res, e1, h1, h2⟩ := Ring.make_good wf hf
  refine ⟨k1, res, e1, ?_⟩
  cases res with
  | error e => exact ⟨by simp only [ring, e1, bind, Except.bind], (h1 e rfl).1⟩
  | ok r =>
    obtain ⟨m, -, -⟩ := h2 r rfl
    obtain ⟨a1, -⟩ := ringRep_make wf ⟨by have := hf.1; omega, fun _ => hf⟩ e1
    obtain ⟨k2, r2, n, e2, a2, ⟨sd, p2, l2⟩⟩ := runs k1 r a1 m.capacity
    obtain ⟨k3, e3, rel⟩ := C27_ring_drop t k2 r2 n a2
    refine ⟨k3, by simp only [ring, e1, bind, Except.bind, e2, e3], rel.wf, ?_, ?_, ?_⟩
    · rw [rel.keeps.page, sd.page, m.keeps.page]
    · funext q
      have g1 := rel.gone q
      have g2 := rel.others q
      have g3 := m.free q
      have g4 := m.others q
      rw [sd.page, m.keeps.page, p2, show SeqWrite.writeCapacity r2 = r.len from l2] at g1 g2
      by_cases c : r.ptr ≤ q * k.page ∧ q * k.page < r.ptr + 2 * r.len
      · rw [g1 c, g3 c.1 c.2]
      · rw [g2 c, sd.pt, g4 c]
    · rw [rel.fds, sd.fds, m.fds]

theorem infinite_runs (wf : Wf t k) {hint : Nat} (fits : 2 * (hint + k.page) ≤ t.lim)
    {body : Kernel → InfiniteRing → Exec (Kernel × InfiniteRing)}
    (runs : ∀ k1 r, InfAt t k1 r 0 → IsRoundUp k.page hint (SeqWrite.writeCapacity r) →
      ∃ k2 r2 n, body k1 r = .ok (k2, r2) ∧ InfAt t k2 r2 n ∧ InfNear k1 r k2 r2) :
    ∃ k1 res, InfiniteRing.make t k hint = .ok (k1, res) ∧
      match res with
      | .error _ => infinite t hint body k = .error .panic ∧ SameWorld k k1
      | .ok _ => ∃ k', infinite t hint body k = .ok k' ∧ Cleared t k k' := by
  have hpos := wf.page_pos
  have hf : RingFits t k hint := ⟨by omega, fun _ => fits⟩
  obtain ⟨k1, res, e1, h1, h2⟩ := InfiniteRing.make_good wf hf
  refine ⟨k1, res, e1, ?_⟩
  cases res with
  | error e => exact ⟨by simp only [infinite, e1, bind, Except.bind], (h1 e rfl).1⟩
  | ok r =>
    obtain ⟨m, g1, g2⟩ := h2 r rfl
    obtain ⟨o, m1, m2, -⟩ := m.owned wf
    have a1 : InfAt t k1 r 0 := .placed m.wf ⟨o, m1, m2⟩ g1 g2
    obtain ⟨k2, r2, n, e2, a2, ⟨sd, p2, l2⟩⟩ := runs k1 r a1 m.capacity
    obtain ⟨k3, e3, rel⟩ := C27_infinite_drop t k2 r2 n a2
    refine ⟨k3, by simp only [infinite, e1, bind, Except.bind, e2, e3], rel.wf, ?_, ?_, ?_⟩
    · rw [rel.keeps.page, sd.page, m.keeps.page]
    · funext q
      have g1 := rel.gone q
      have g2 := rel.others q
      have g3 := m.free q
      have g4 := m.others q
      rw [sd.page, m.keeps.page, p2, show SeqWrite.writeCapacity r2 = r.len from l2] at g1 g2
      by_cases c : r.ptr ≤ q * k.page ∧ q * k.page < r.ptr + 2 * r.len
      · rw [g1 c, g3 c.1 c.2]
      · rw [g2 c, sd.pt, g4 c]
    · rw [rel.fds, sd.fds, m.fds]

end

theorem _root_.Vmap.Spec.Cleared.trans {k k1 k2 : Kernel} (h : Cleared t k k1) (h' : Cleared t k1 k2) :
    Cleared t k k2 :=
  ⟨h'.wf, h'.page.trans h.page, h'.pt.trans h.pt, h'.fds.trans h.fds⟩

theorem rings_run {page : Nat} {body : Kernel → Ring → Exec (Kernel × Ring)} : ∀ (hs : List Nat) {k : Kernel},
    Wf t k → k.page = page → (∀ hint ∈ hs, 2 * (hint + page) ≤ t.lim) →
    (∀ hint ∈ hs, ∀ k1 r, RingAt t k1 r 0 → IsRoundUp page hint (SeqWrite.writeCapacity r) →
      ∃ k2 r2 n, body k1 r = .ok (k2, r2) ∧ RingAt t k2 r2 n ∧ Near k1 r k2 r2) →
    (∃ k', rings t body hs k = .ok k' ∧ Cleared t k k') ∨
    (rings t body hs k = .error .panic ∧ ∃ pre hint post k1 k2 e, hs = pre ++ hint :: post ∧
      rings t body pre k = .ok k1 ∧ Cleared t k k1 ∧ Ring.make t k1 hint = .ok (k2, .error e))
  | [], k, wf, _, _, _ => .inl ⟨k, rfl, wf, rfl, rfl, rfl⟩
  | hint :: hs, k, wf, hp, fits, runs => by
    subst hp
    obtain ⟨k1, res, e1, h1⟩ := ring_runs wf (fits hint (by simp)) (runs hint (by simp))
    cases res with
    | error e =>
      refine .inr ⟨by simp only [rings, h1.1, bind, Except.bind], [], hint, hs, k, k1, e, rfl, rfl,
        ⟨wf, rfl, rfl, rfl⟩, e1⟩
    | ok r =>
      obtain ⟨k', e2, cl⟩ := h1
      rcases rings_run hs cl.wf cl.page (fun x hx => fits x (by simp [hx])) (fun x hx => runs x (by simp [hx])) with
        ⟨k3, e3, cl3⟩ | ⟨e3, pre, x, post, k4, k5, e, h4, h5, h6, h7⟩
      · exact .inl ⟨k3, by simp only [rings, e2, bind, Except.bind, e3], cl.trans cl3⟩
      · exact .inr ⟨by simp only [rings, e2, bind, Except.bind, e3], hint :: pre, x, post, k4, k5, e, by rw [h4]; rfl,
          by simp only [rings, e2, bind, Except.bind, h5], cl.trans h6, h7⟩

/-! On Windows. -/

section
variable {s : Vmap.Win} {mem : Vmap.Win → Kernel}

theorem winRing_runs (w : WinWf t s) (laid : WinLaid t s) (hm : WinMemory t mem) {hint : Nat} (pos : 0 < hint)
    (sane : 2 * (hint + s.gran) < t.lim) {body : Kernel → Ring → Exec (Kernel × Ring)}
    (runs : ∀ k1 r, RingAt t k1 r 0 → IsRoundUp s.gran hint (SeqWrite.writeCapacity r) →
      ∃ k2 r2 n, body k1 r = .ok (k2, r2) ∧ RingAt t k2 r2 n ∧ Near k1 r k2 r2) :
    ∃ s1 res, s.ringNew t hint = .ok (s1, res) ∧
      match res with
      | .error _ => winRing t hint body mem s = .error .panic ∧ WinGone s s1
      | .ok _ => ∃ s', winRing t hint body mem s = .ok s' ∧ WinGone s s' := by
  obtain ⟨s1, res, e1, bad, good⟩ := winRing_new w laid pos sane hm
  refine ⟨s1, res, e1, ?_⟩
  cases res with
  | error e => exact ⟨by simp only [winRing, e1, bind, Except.bind], bad e rfl⟩
  | ok r =>
    obtain ⟨-, -, a1, -, cap, gone⟩ := good r rfl
    obtain ⟨k2, r2, n, e2, -, -, st⟩ := runs (mem s1) r a1 cap
    exact ⟨s1.dropRing t r2, by simp only [winRing, e1, bind, Except.bind, e2]; rfl, gone r2 st⟩

theorem winInfinite_runs (w : WinWf t s) (laid : WinLaid t s) (hm : WinMemory t mem) {hint : Nat} (pos : 0 < hint)
    (sane : 2 * (hint + s.gran) < t.lim) {body : Kernel → InfiniteRing → Exec (Kernel × InfiniteRing)}
    (runs : ∀ k1 r, InfAt t k1 r 0 → IsRoundUp s.gran hint (SeqWrite.writeCapacity r) →
      ∃ k2 r2 n, body k1 r = .ok (k2, r2) ∧ InfAt t k2 r2 n ∧ InfNear k1 r k2 r2) :
    ∃ s1 res, s.infNew t hint = .ok (s1, res) ∧
      match res with
      | .error _ => winInfinite t hint body mem s = .error .panic ∧ WinGone s s1
      | .ok _ => ∃ s', winInfinite t hint body mem s = .ok s' ∧ WinGone s s' := by
  obtain ⟨s1, res, e1, bad, good⟩ := winInf_new w laid pos sane hm
  refine ⟨s1, res, e1, ?_⟩
  cases res with
  | error e => exact ⟨by simp only [winInfinite, e1, bind, Except.bind], bad e rfl⟩
  | ok r =>
    obtain ⟨a1, cap, gone⟩ := good r rfl
    obtain ⟨k2, r2, n, e2, -, -, st⟩ := runs (mem s1) r a1 cap
    exact ⟨s1.dropInf t r2, by simp only [winInfinite, e1, bind, Except.bind, e2]; rfl, gone r2 st⟩

end

theorem gone_wf {s s' : Vmap.Win} (w : WinWf t s) (g : WinGone s s') : WinWf t s' := by
  obtain ⟨gv, gr⟩ := g
  have hn := gr.bytes.next
  refine ⟨by rw [gr.page, gr.gran]; exact w.sizes, fun v hv => ?_, fun r hr => ?_, fun h sec hs => ?_⟩
  · rw [gv] at hv
    have := w.views v hv
    exact ⟨this.1, by omega⟩
  · rw [gr.reserved] at hr; exact w.reserved r hr
  · rw [gr.handles] at hs
    have := w.handles h sec hs
    exact ⟨by omega, by omega⟩

theorem gone_laid {s s' : Vmap.Win} (l : WinLaid t s) (g : WinGone s s') : WinLaid t s' := by
  obtain ⟨gv, gr⟩ := g
  have hp : s'.roundPage = s.roundPage := by funext n; simp only [Win.roundPage, gr.page]
  refine ⟨by rw [gr.page, gr.gran]; exact l.sizes, fun v hv => ?_, ?_⟩
  · rw [gv] at hv
    rw [hp, gr.gran]
    exact l.inside v hv
  · rw [gv, hp]
    exact l.apart

theorem gone_trans {s s1 s2 : Vmap.Win} (g : WinGone s s1) (g' : WinGone s1 s2) : WinGone s s2 := by
  obtain ⟨gv, gr⟩ := g
  obtain ⟨gv', gr'⟩ := g'
  refine ⟨gv'.trans gv, gr'.handles.trans gr.handles, gr'.reserved.trans gr.reserved, gr'.files.trans gr.files,
    gr'.page.trans gr.page, gr'.gran.trans gr.gran, Nat.le_trans gr.bytes.next gr'.bytes.next,
    gr'.bytes.file.trans gr.bytes.file, fun id h => ?_, fun id h1 h2 => ?_⟩
  · have a := gr.bytes.old id h
    have b := gr'.bytes.old id (Nat.lt_of_lt_of_le h gr.bytes.next)
    exact ⟨b.1.trans a.1, b.2.trans a.2⟩
  · by_cases c : id < s1.next
    · have a := gr.bytes.new id h1 c
      have b := gr'.bytes.old id c
      exact ⟨fun i => by rw [b.1]; exact a.1 i, fun x => by rw [b.2]; exact a.2 x⟩
    · exact gr'.bytes.new id (by omega) h2

theorem winGone_refl (s : Vmap.Win) : WinGone s s :=
  ⟨rfl, rfl, rfl, rfl, rfl, rfl, Nat.le_refl _, rfl, fun _ _ => ⟨rfl, rfl⟩, fun _ h h' => absurd h' (by omega)⟩

theorem winRings_run {gran : Nat} {body : Kernel → Ring → Exec (Kernel × Ring)} {mem : Vmap.Win → Kernel}
    (hm : WinMemory t mem) : ∀ (hs : List Nat) {s : Vmap.Win},
    WinWf t s → WinLaid t s → s.gran = gran → (∀ hint ∈ hs, 0 < hint ∧ 2 * (hint + gran) < t.lim) →
    (∀ hint ∈ hs, ∀ k1 r, RingAt t k1 r 0 → IsRoundUp gran hint (SeqWrite.writeCapacity r) →
      ∃ k2 r2 n, body k1 r = .ok (k2, r2) ∧ RingAt t k2 r2 n ∧ Near k1 r k2 r2) →
    (∃ s', winRings t body mem hs s = .ok s' ∧ WinGone s s') ∨
    (winRings t body mem hs s = .error .panic ∧ ∃ pre hint post s1 s2 e, hs = pre ++ hint :: post ∧
      winRings t body mem pre s = .ok s1 ∧ WinGone s s1 ∧ s1.ringNew t hint = .ok (s2, .error e))
  | [], s, w, l, _, _, _ => .inl ⟨s, rfl, winGone_refl s⟩
  | hint :: hs, s, w, l, hp, fits, runs => by
    subst hp
    obtain ⟨s1, res, e1, h1⟩ := winRing_runs w l hm (fits hint (by simp)).1 (fits hint (by simp)).2 (runs hint (by simp))
    cases res with
    | error e =>
      refine .inr ⟨by simp only [winRings, h1.1, bind, Except.bind], [], hint, hs, s, s1, e, rfl, rfl,
        winGone_refl s, e1⟩
    | ok r =>
      obtain ⟨s', e2, cl⟩ := h1
      rcases winRings_run hm hs (gone_wf w cl) (gone_laid l cl) cl.rest.gran (fun x hx => fits x (by simp [hx]))
        (fun x hx => runs x (by simp [hx])) with
        ⟨k3, e3, cl3⟩ | ⟨e3, pre, x, post, k4, k5, e, h4, h5, h6, h7⟩
      · exact .inl ⟨k3, by simp only [winRings, e2, bind, Except.bind, e3], gone_trans cl cl3⟩
      · exact .inr ⟨by simp only [winRings, e2, bind, Except.bind, e3], hint :: pre, x, post, k4, k5, e,
          by rw [h4]; rfl, by simp only [winRings, e2, bind, Except.bind, h5], gone_trans cl h6, h7⟩

end Tests
end Vmap
