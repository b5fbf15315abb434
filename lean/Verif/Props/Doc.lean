import Verif.Proofs.Doc
import Verif.Props.Darwin
/-
Property theorems C154: the examples of the crate's documentation, as programs.
-/
namespace Vmap
open Kernel Spec

/-- UTF-8 as far as the examples need it: every ASCII text is valid. -/
def Spec.AsciiValid (valid : List Byte → Bool) : Prop := ∀ l, (∀ b ∈ l, b < 128) → valid l = true

/-! ### The ring example -/

/-- C154: the ring example on any new ring of any capacity from 220 bytes to 2 GiB.  It succeeds — every
assertion holds — if the last line that fits leaves at most 20 bytes; otherwise the loop's own `write!`
fails with `WriteZero`. -/
theorem C154_ring_body (t : Target) (k : Kernel) (r : Ring) (h : RingAt t k r 0)
    (hq : r.fillBuf t k = .ok []) (lo : 220 ≤ SeqWrite.writeCapacity r)
    (hi : SeqWrite.writeCapacity r < 2 ^ 31) (valid : List Byte → Bool) (hv : AsciiValid valid)
    (fuel : Nat) (hf : SeqWrite.writeCapacity r < 20 * fuel) :
    ∃ k' r' n x, Doc.ringBody t valid fuel k r = .ok (some ((k', r'), x)) ∧ RingAt t k' r' n ∧
      ((∃ j, bytesUpTo j ≤ SeqWrite.writeCapacity r ∧ SeqWrite.writeCapacity r ≤ bytesUpTo j + 20) →
        x = .ok ()) ∧
      ((¬ ∃ j, bytesUpTo j ≤ SeqWrite.writeCapacity r ∧
          SeqWrite.writeCapacity r ≤ bytesUpTo j + 20) → x = .error (.ofKind .writeZero)) := by
  obtain ⟨k1, r1, n, x, e1, -, hn, hx⟩ := Doc.fill_spec lo hi fuel 0 k r h (by simpa [Doc.text] using hq)
    rfl (Nat.zero_le _) (by simpa [bytesUpTo] using hf)
  simp only [Doc.ringBody, e1, bind, Except.bind]
  rcases hx with ⟨hle, rfl, a1, f1, c1⟩ | ⟨hlt, hlt2, rfl, a1, c1⟩
  · simp only
    have hn10 : 10 ≤ n := by
      apply Nat.le_of_not_lt
      intro hlt
      have := Doc.bytesUpTo_mono (show n ≤ 9 by omega)
      have := Doc.bytesUpTo_nine
      omega
    obtain ⟨m, rfl⟩ : ∃ m, n = m + 2 := ⟨n - 2, by omega⟩
    have hlong := Doc.lineBytes_long (show 10 ≤ m + 2 + 1 by omega)
    have hle29 := Doc.lineBytes_le (m + 2 + 1)
    have hl : (Doc.pieces (m + 2 + 1)).flatten.length = lineBytes (m + 2 + 1) := Doc.line_length _
    obtain ⟨a, w, g1, g2, g3, -⟩ := C08_ring_lengths t k1 r1 _ a1
    obtain ⟨q, sp, v⟩ := a1.view
    have hw : w = SeqWrite.writeCapacity r - bytesUpTo (m + 2) := by
      have hq' := v.fillBuf
      rw [f1] at hq'
      injection hq' with hq'
      have h1' := v.readLen
      rw [g1] at h1'
      injection h1' with h1'
      have := congrArg List.length hq'
      rw [Doc.text_length] at this
      omega
    have hroom := Doc.room a1 (by omega)
    -- the assertion that nothing more fits
    obtain ⟨k2, r2, e2, f2, a2, c2⟩ := C130_ring_write_fmt t k1 r1 _ a1 _ w f1 g2
      (Doc.pieces (m + 2 + 1)) (by omega)
    rw [hl, if_neg (by omega)] at e2
    rw [hl, show bytesUpTo (m + 2) + min (lineBytes (m + 2 + 1)) w = SeqWrite.writeCapacity r by omega]
      at a2
    have hat : Doc.assert true = .ok () := rfl
    simp only [e2, hat]
    obtain ⟨rest, hrest⟩ := Doc.text_two m
    rw [hrest, List.append_assoc, List.append_assoc] at f2
    -- the two lines
    obtain ⟨r3, e3, a3, f3, c3⟩ := C130_ring_read_line t k2 r2 _ a2 _ f2 valid [] fuel
    rw [Doc.upTo_line1, hv _ (Doc.line_ascii 1)] at e3
    rw [Doc.upTo_line1, List.drop_left] at f3
    simp only [e3, if_true, List.nil_append, decide_true, hat]
    obtain ⟨r4, e4, a4, f4, c4⟩ := C130_ring_read_line t k2 r3 _ a3 _ f3 valid [] fuel
    rw [Doc.upTo_line2, hv _ (Doc.line_ascii 2)] at e4
    rw [Doc.upTo_line2, List.drop_left] at f4
    simp only [e4, if_true, List.nil_append, decide_true, hat]
    -- room again
    obtain ⟨a', w', i1, i2, i3, -⟩ := C08_ring_lengths t k2 r4 _ a4
    have hw' : 40 ≤ w' := by
      obtain ⟨q', sp', v'⟩ := a4.view
      have hq' := v'.fillBuf
      rw [f4] at hq'
      injection hq' with hq'
      have h1' := v'.readLen
      rw [i1] at h1'
      injection h1' with h1'
      have hlen := congrArg List.length hq'
      have h2' := congrArg List.length hrest
      have hl1 : (Doc.line 1).length = 20 := by decide
      have hl2 : (Doc.line 2).length = 20 := by decide
      rw [Doc.text_length] at h2'
      simp only [List.length_append, List.length_take, hl] at hlen h2'
      omega
    obtain ⟨k5, r5, e5, f5, a5, c5⟩ := C130_ring_write_fmt t k2 r4 _ a4 _ w' f4 i2
      (Doc.pieces (m + 2 + 1)) (by rw [c4, c3, c2]; omega)
    rw [hl, if_pos (by omega)] at e5
    simp only [e5]
    exact ⟨k5, r5, _, _, rfl, a5, fun _ => rfl, fun hno => absurd ⟨m + 2, hn, hle⟩ hno⟩
  · exact ⟨k1, r1, _, _, rfl, a1, fun ⟨j, j1, j2⟩ => by
      by_cases hj : j ≤ n
      · have := Doc.bytesUpTo_mono hj; omega
      · have := Doc.bytesUpTo_mono (show n + 1 ≤ j by omega); omega, fun _ => rfl⟩

/-- Page sizes of today's systems: 4, 8, 16, 32 and 64 KiB. -/
def Spec.UsualPage (page : Nat) : Prop :=
  page = 4096 ∨ page = 8192 ∨ page = 16384 ∨ page = 32768 ∨ page = 65536

theorem usual_capacity {page len : Nat} (hp : UsualPage page) (h : IsRoundUp page 4000 len) :
    len = page := by
  obtain ⟨⟨c, rfl⟩, h2, h3⟩ := h
  have h4 := h3 page ⟨1, by omega⟩ (by rcases hp with h | h | h | h | h <;> omega)
  have hc : c ≠ 0 := by rintro rfl; omega
  have : page * 1 ≤ page * c := Nat.mul_le_mul_left _ (by omega)
  omega

theorem usual_fits {t : Target} {k : Kernel} (hp : UsualPage k.page) : RingFits t k 4000 := by
  have h : 2 ^ 32 ≤ t.lim := by
    rcases t with ⟨w, c⟩; cases w <;> simp [Target.lim, Width.bits]
  have h2 : k.page ≤ 65536 := by rcases hp with h | h | h | h | h <;> omega
  exact ⟨by omega, fun _ => by omega⟩

/-- C154: the ring example, from `Ring::new(4000)` to the drop, on any Unix with one of the usual page
sizes, whatever the state of the process and whatever the system calls do: if the ring cannot be
created it panics (`unwrap`), otherwise it succeeds. -/
theorem C154_ring_partial (t : Target) (k : Kernel) (wf : Wf t k) (hp : UsualPage k.page)
    (valid : List Byte → Bool) (hv : AsciiValid valid) (fuel : Nat) (hf : 65536 < 20 * fuel) :
    ∃ k1 res, Ring.make t k 4000 = .ok (k1, res) ∧
      match res with
      | .error _ => Doc.ring t valid fuel k = .error .panic
      | .ok _ => ∃ k', Doc.ring t valid fuel k = .ok (some (k', .ok ())) := by
  obtain ⟨k1, res, e1, -, h2⟩ := Ring.make_good wf (usual_fits hp)
  refine ⟨k1, res, e1, ?_⟩
  cases res with
  | error e => simp only [Doc.ring, e1, bind, Except.bind]
  | ok r =>
    obtain ⟨m, -, -⟩ := h2 r rfl
    have hlen : SeqWrite.writeCapacity r = k.page := usual_capacity hp m.capacity
    have hfit : RingFits t k 4000 := usual_fits hp
    obtain ⟨a1, o, rep, -⟩ := ringRep_make wf ⟨by have := hfit.1; omega, fun _ => hfit⟩ e1
    have hex : ∃ j, bytesUpTo j ≤ k.page ∧ k.page ≤ bytesUpTo j + 20 := by
      rcases hp with h | h | h | h | h <;> rw [h]
      · exact ⟨191, by decide +kernel⟩
      · exact ⟨377, by decide +kernel⟩
      · exact ⟨749, by decide +kernel⟩
      · exact ⟨1472, by decide +kernel⟩
      · exact ⟨2897, by decide +kernel⟩
    have h2 : 4096 ≤ k.page ∧ k.page ≤ 65536 := by rcases hp with h | h | h | h | h <;> omega
    obtain ⟨k2, r2, n, x, e2, a2, hx, -⟩ := C154_ring_body t k1 r a1 rep.fillBuf_eq (by omega) (by omega)
      valid hv fuel (by omega)
    rw [hlen] at hx
    obtain ⟨k3, e3, -⟩ := C27_ring_drop t k2 r2 n a2
    simp only [Doc.ring, e1, bind, Except.bind, e2, e3, hx hex]
    exact ⟨k3, rfl⟩

/-! ### The infinite ring example -/

/-- C154: the infinite ring example on any new ring of any capacity from 220 bytes to 2 GiB.  It
succeeds — every assertion holds — if the lines overshoot the capacity by at most 20 bytes; otherwise
it panics (`20 - buf.read_offset()` overflows, or, in a build without overflow checks, the assertions
fail). -/
theorem C154_infinite_body (t : Target) (k : Kernel) (r : InfiniteRing) (h : InfAt t k r 0)
    (hq : r.fillBuf t k = .ok []) (lo : 220 ≤ SeqWrite.writeCapacity r)
    (hi : SeqWrite.writeCapacity r < 2 ^ 31) (valid : List Byte → Bool) (hv : AsciiValid valid)
    (fuel : Nat) (hf : SeqWrite.writeCapacity r + 29 < 20 * fuel) :
    ((∃ j, SeqWrite.writeCapacity r ≤ bytesUpTo j ∧ bytesUpTo j ≤ SeqWrite.writeCapacity r + 20) →
      ∃ k' r' n, Doc.infiniteBody t valid fuel k r = .ok (some ((k', r'), .ok ())) ∧
        InfAt t k' r' n) ∧
    ((¬ ∃ j, SeqWrite.writeCapacity r ≤ bytesUpTo j ∧
        bytesUpTo j ≤ SeqWrite.writeCapacity r + 20) →
      Doc.infiniteBody t valid fuel k r = .error .panic) := by
  obtain ⟨k1, r1, n, e1, h1, h2, h3, a1, f1, c1⟩ := Doc.flood_spec lo hi fuel 0 k r h
    (by simpa [Doc.text, lastN] using hq) rfl (Nat.zero_le _) (by simpa [bytesUpTo] using hf)
  have e1 : Doc.flood t fuel k r 1 0 = _ := e1
  obtain ⟨q, v⟩ := a1.view
  have hqe := v.fillBuf
  rw [f1] at hqe
  injection hqe with hqe
  subst hqe
  have hn : 2 ≤ n := by
    apply Nat.le_of_not_lt
    intro hlt
    have := Doc.bytesUpTo_mono (show n ≤ 9 by omega)
    have := Doc.bytesUpTo_nine
    omega
  obtain ⟨m, rfl⟩ : ∃ m, n = m + 2 := ⟨n - 2, by omega⟩
  have hql : (lastN (SeqWrite.writeCapacity r) (Doc.text (m + 2))).length = SeqWrite.writeCapacity r := by
    rw [lastN, List.length_drop, Doc.text_length]; omega
  have hoff : r1.readOffset t = .ok (bytesUpTo (m + 2) - SeqWrite.writeCapacity r) := by
    obtain ⟨o, old, rep⟩ := v.rep
    have hr := rep.qlen
    have ht := rep.total
    simp only at hr ht
    rw [hql] at hr
    rw [rep.readOffset_eq, hr, ht, Nat.mod_eq_of_lt]
    simp only [SeqWrite.writeCapacity] at c1 lo h1 h2 ⊢
    omega
  have hlim := (Doc.inf_room a1 (by omega)).2
  simp only [Doc.infiniteBody, e1, bind, Except.bind, hoff]
  constructor
  · rintro ⟨j, j1, j2⟩
    have hle : bytesUpTo (m + 2) ≤ SeqWrite.writeCapacity r + 20 := by
      rcases h3 with h3 | ⟨p, h3, h4⟩
      · omega
      · rcases Nat.lt_or_ge p j with hp | hp
        · have := Doc.bytesUpTo_mono (show m + 2 ≤ j by omega); omega
        · have := Doc.bytesUpTo_mono hp; omega
    obtain ⟨r2, e2, v2, l2⟩ := v.consume (20 - (bytesUpTo (m + 2) - SeqWrite.writeCapacity r))
    obtain ⟨rest, hrest⟩ := Doc.text_two m
    have hd : (lastN (SeqWrite.writeCapacity r) (Doc.text (m + 2))).drop
        (20 - (bytesUpTo (m + 2) - SeqWrite.writeCapacity r)) = Doc.line 2 ++ rest := by
      rw [lastN, List.drop_drop, Doc.text_length, show bytesUpTo (m + 2) - SeqWrite.writeCapacity r +
        (20 - (bytesUpTo (m + 2) - SeqWrite.writeCapacity r)) = (Doc.line 1).length from by
          rw [show (Doc.line 1).length = 20 by decide]; omega, hrest, List.drop_left]
    rw [hd] at v2
    obtain ⟨r3, e3, v3, l3⟩ := v2.readUntil 10 fuel
    rw [Doc.upTo_line2] at e3
    have hl2 : (Doc.line 2).length = 20 := by decide
    have hat : Doc.assert true = .ok () := rfl
    have hs2 : subU t 20 20 = .ok 0 := subU_ok (Nat.le_refl _)
    simp only [subU_ok (show bytesUpTo (m + 2) - SeqWrite.writeCapacity r ≤ 20 by omega), e2, readLine,
      bind, Except.bind, e3, hv _ (Doc.line_ascii 2), if_true, pure, Except.pure,
      List.nil_append, hl2, decide_true, hat, hs2, List.drop_zero]
    exact ⟨k1, r3, _, rfl, v3.at_⟩
  · intro hno
    have hgt : SeqWrite.writeCapacity r + 20 < bytesUpTo (m + 2) :=
      Nat.lt_of_not_le fun hle => hno ⟨m + 2, h1, hle⟩
    by_cases hc : t.checks = true
    · have hs : subU t 20 (bytesUpTo (m + 2) - SeqWrite.writeCapacity r) = .error .panic := by
        rw [subU, subL, if_neg (by omega), if_pos hc]
      simp only [hs]
    · have hs : subU t 20 (bytesUpTo (m + 2) - SeqWrite.writeCapacity r) =
          .ok (20 + t.lim - (bytesUpTo (m + 2) - SeqWrite.writeCapacity r)) := by
        rw [subU, subL, if_neg (by omega), if_neg hc, Nat.mod_eq_of_lt (by omega)]
      obtain ⟨r2, e2, v2, l2⟩ := v.consume
        (20 + t.lim - (bytesUpTo (m + 2) - SeqWrite.writeCapacity r))
      rw [List.drop_eq_nil_of_le (by omega)] at v2
      obtain ⟨r3, e3, v3, l3⟩ := v2.readUntil 10 fuel
      have hz : Doc.assert (decide (0 = 20)) = .error .panic := rfl
      simp only [hs, e2, readLine, bind, Except.bind, e3, upTo, hv [] (by simp), if_true, pure,
        Except.pure, List.nil_append, List.length_nil, hz]

/-- C154: the infinite ring example, from `InfiniteRing::new(4000)` to the drop, as for the ring. -/
theorem C154_infinite_partial (t : Target) (k : Kernel) (wf : Wf t k) (hp : UsualPage k.page)
    (valid : List Byte → Bool) (hv : AsciiValid valid) (fuel : Nat) (hf : 65566 < 20 * fuel) :
    ∃ k1 res, InfiniteRing.make t k 4000 = .ok (k1, res) ∧
      match res with
      | .error _ => Doc.infinite t valid fuel k = .error .panic
      | .ok _ => ∃ k', Doc.infinite t valid fuel k = .ok (some (k', .ok ())) := by
  obtain ⟨k1, res, e1, -, h2⟩ := InfiniteRing.make_good wf (usual_fits hp)
  refine ⟨k1, res, e1, ?_⟩
  cases res with
  | error e => simp only [Doc.infinite, e1, bind, Except.bind]
  | ok r =>
    obtain ⟨m, g1, g2⟩ := h2 r rfl
    have hlen : SeqWrite.writeCapacity r = k.page := usual_capacity hp m.capacity
    obtain ⟨o, m1, m2, -⟩ := m.owned wf
    have a1 : InfAt t k1 r 0 := .placed m.wf ⟨o, m1, m2⟩ g1 g2
    obtain ⟨q, v⟩ := a1.view
    have hq : r.fillBuf t k1 = .ok [] := by
      obtain ⟨o, old, rep⟩ := v.rep
      have := rep.qlen
      simp only [g1] at this
      rw [v.fillBuf, List.eq_nil_of_length_eq_zero this.symm]
    have hex : ∃ j, k.page ≤ bytesUpTo j ∧ bytesUpTo j ≤ k.page + 20 := by
      rcases hp with h | h | h | h | h <;> rw [h]
      · exact ⟨192, by decide +kernel⟩
      · exact ⟨378, by decide +kernel⟩
      · exact ⟨750, by decide +kernel⟩
      · exact ⟨1473, by decide +kernel⟩
      · exact ⟨2898, by decide +kernel⟩
    have h2 : 4096 ≤ k.page ∧ k.page ≤ 65536 := by rcases hp with h | h | h | h | h <;> omega
    obtain ⟨hx, -⟩ := C154_infinite_body t k1 r a1 hq (by omega) (by omega) valid hv fuel (by omega)
    rw [hlen] at hx
    obtain ⟨k2, r2, n, e2, a2⟩ := hx hex
    obtain ⟨k3, e3, -⟩ := C27_infinite_drop t k2 r2 n a2
    simp only [Doc.infinite, e1, bind, Except.bind, e2, e3]
    exact ⟨k3, rfl⟩

/-! ### Larger pages -/

/-- A Unix on which every system call succeeds, with pages of `2 ^ bits` bytes. -/
def bigPages (bits : Nat) : Kernel := { demo 0 with page := 2 ^ bits }

theorem bigPages_wf {t : Target} {bits : Nat} (h : bits + 2 ≤ t.width.bits) : Wf t (bigPages bits) where
  page := ⟨bits, rfl, h⟩
  addr := fun p e h => by cases h
  objs := fun p e h => by cases h
  fds := (demo_wf (t := t) 0).fds
  names := (demo_wf (t := t) 0).names
  excl := fun p e c h => by cases h
  shared := fun p e h => by cases h

/-- C154 is false without the restriction of the page size: with pages of 128 KiB the ring example
fails with `WriteZero` on a 64-bit system where every system call succeeds. -/
theorem C154_ring_false (checks : Bool) (valid : List Byte → Bool) (hv : AsciiValid valid) (fuel : Nat)
    (hf : 131072 < 20 * fuel) :
    ∃ k k', Wf ⟨.w64, checks⟩ k ∧ k.page = 131072 ∧ (∀ n, (k.oracle n).ok = true) ∧
      Doc.ring ⟨.w64, checks⟩ valid fuel k = .ok (some (k', .error (.ofKind .writeZero))) := by
  have wf : Wf ⟨.w64, checks⟩ (bigPages 17) := bigPages_wf (by simp [Width.bits])
  obtain ⟨k1, r, e1⟩ : ∃ k r, Ring.make ⟨.w64, checks⟩ (bigPages 17) 4000 = .ok (k, .ok r) := by
    cases checks <;> exact ⟨_, _, rfl⟩
  have hfit : RingFits ⟨.w64, checks⟩ (bigPages 17) 4000 := by
    cases checks <;> exact ⟨by decide +kernel, fun _ => by decide +kernel⟩
  obtain ⟨a1, o, rep, -⟩ := ringRep_make wf ⟨by have := hfit.1; omega, fun _ => hfit⟩ e1
  obtain ⟨k1', res, e1', -, h2⟩ := Ring.make_good wf hfit
  rw [e1] at e1'
  obtain ⟨rfl, rfl⟩ : k1 = k1' ∧ Except.ok r = res := by injection e1' with e; injection e with a b; exact ⟨a, b⟩
  obtain ⟨m, -, -⟩ := h2 r rfl
  have hlen : SeqWrite.writeCapacity r = 131072 := by
    obtain ⟨⟨c, hc⟩, c2, c3⟩ := m.capacity
    have h4 := c3 131072 ⟨1, rfl⟩ (by omega)
    have : (bigPages 17).page = 131072 := rfl
    simp only [SeqWrite.writeCapacity]
    rw [this] at hc
    omega
  obtain ⟨k2, r2, n, x, e2, a2, -, hx⟩ := C154_ring_body _ k1 r a1 rep.fillBuf_eq (by omega) (by omega)
    valid hv fuel (by omega)
  rw [hlen] at hx
  have hno : ¬ ∃ j, bytesUpTo j ≤ 131072 ∧ 131072 ≤ bytesUpTo j + 20 := by
    rintro ⟨j, j1, j2⟩
    have hb : bytesUpTo 5746 + 20 < 131072 ∧ 131072 < bytesUpTo 5747 := by decide +kernel
    by_cases hj : j ≤ 5746
    · have := Doc.bytesUpTo_mono hj; omega
    · have := Doc.bytesUpTo_mono (show 5747 ≤ j by omega); omega
  obtain ⟨k3, e3, -⟩ := C27_ring_drop _ k2 r2 n a2
  refine ⟨bigPages 17, k3, wf, rfl, fun n => by simp [bigPages, demo], ?_⟩
  simp only [Doc.ring, e1, bind, Except.bind, e2, e3, hx hno]
  rfl

/-- C154 for the infinite ring is false without the restriction of the page size: with pages of 512 KiB
the example panics on a 64-bit system where every system call succeeds, although the ring was created. -/
theorem C154_infinite_false (checks : Bool) (valid : List Byte → Bool) (hv : AsciiValid valid)
    (fuel : Nat) (hf : 524317 < 20 * fuel) :
    ∃ k k1 r, Wf ⟨.w64, checks⟩ k ∧ k.page = 524288 ∧ (∀ n, (k.oracle n).ok = true) ∧
      InfiniteRing.make ⟨.w64, checks⟩ k 4000 = .ok (k1, .ok r) ∧
      Doc.infinite ⟨.w64, checks⟩ valid fuel k = .error .panic := by
  have wf : Wf ⟨.w64, checks⟩ (bigPages 19) := bigPages_wf (by simp [Width.bits])
  obtain ⟨k1, r, e1⟩ : ∃ k r, InfiniteRing.make ⟨.w64, checks⟩ (bigPages 19) 4000 = .ok (k, .ok r) := by
    cases checks <;> exact ⟨_, _, rfl⟩
  have hfit : RingFits ⟨.w64, checks⟩ (bigPages 19) 4000 := by
    cases checks <;> exact ⟨by decide +kernel, fun _ => by decide +kernel⟩
  obtain ⟨k1', res, e1', -, h2⟩ := InfiniteRing.make_good wf hfit
  rw [e1] at e1'
  obtain ⟨rfl, rfl⟩ : k1 = k1' ∧ Except.ok r = res := by injection e1' with e; injection e with a b; exact ⟨a, b⟩
  obtain ⟨m, g1, g2⟩ := h2 r rfl
  have hlen : SeqWrite.writeCapacity r = 524288 := by
    obtain ⟨⟨c, hc⟩, c2, c3⟩ := m.capacity
    have h4 := c3 524288 ⟨1, rfl⟩ (by omega)
    have : (bigPages 19).page = 524288 := rfl
    simp only [SeqWrite.writeCapacity]
    rw [this] at hc
    omega
  obtain ⟨o, m1, m2, -⟩ := m.owned wf
  have a1 : InfAt ⟨.w64, checks⟩ k1 r 0 := .placed m.wf ⟨o, m1, m2⟩ g1 g2
  obtain ⟨q, v⟩ := a1.view
  have hq : r.fillBuf ⟨.w64, checks⟩ k1 = .ok [] := by
    obtain ⟨o, old, rep⟩ := v.rep
    have := rep.qlen
    simp only [g1] at this
    rw [v.fillBuf, List.eq_nil_of_length_eq_zero this.symm]
  obtain ⟨-, hx⟩ := C154_infinite_body _ k1 r a1 hq (by omega) (by omega) valid hv fuel (by omega)
  rw [hlen] at hx
  have hno : ¬ ∃ j, 524288 ≤ bytesUpTo j ∧ bytesUpTo j ≤ 524288 + 20 := by
    rintro ⟨j, j1, j2⟩
    have hb : bytesUpTo 22308 < 524288 ∧ 524288 + 20 < bytesUpTo 22309 := by decide +kernel
    by_cases hj : j ≤ 22308
    · have := Doc.bytesUpTo_mono hj; omega
    · have := Doc.bytesUpTo_mono (show 22309 ≤ j by omega); omega
  refine ⟨bigPages 19, k1, r, wf, rfl, fun n => by simp [bigPages, demo], e1, ?_⟩
  simp only [Doc.infinite, e1, bind, Except.bind, hx hno]

-- a reachable new ring of one 4 KiB page for the theorems on any capacity, and a UTF-8 predicate
example : ∃ k r, RingAt ⟨.w64, true⟩ k r 0 ∧ r.fillBuf ⟨.w64, true⟩ k = .ok [] ∧
    SeqWrite.writeCapacity r = 4096 ∧
    AsciiValid (fun l => l.all (· < 128)) := by
  obtain ⟨k1, r, e1⟩ : ∃ k r, Ring.make ⟨.w64, true⟩ (bigPages 12) 4000 = .ok (k, .ok r) := ⟨_, _, rfl⟩
  have wf : Wf ⟨.w64, true⟩ (bigPages 12) := bigPages_wf (by simp [Width.bits])
  have hfit : RingFits ⟨.w64, true⟩ (bigPages 12) 4000 := ⟨by decide +kernel, fun _ => by decide +kernel⟩
  obtain ⟨a1, o, rep, -⟩ := ringRep_make wf ⟨by decide +kernel, fun _ => hfit⟩ e1
  refine ⟨k1, r, a1, rep.fillBuf_eq, ?_, fun l hl => by simpa using hl⟩
  injection e1 with e1
  injection e1 with _ e1
  injection e1 with e1
  subst e1
  rfl

-- the usual page sizes, and lines 1 to 191 and 192 around 4096 bytes
example : UsualPage (demo 0).page ∧ bytesUpTo 191 = 4094 ∧ bytesUpTo 192 = 4116 := by
  refine ⟨.inl rfl, ?_, ?_⟩ <;> decide +kernel

end Vmap
