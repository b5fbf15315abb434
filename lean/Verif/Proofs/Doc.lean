import Verif.Model.Doc
import Verif.Spec.Doc
import Verif.Props.Lines
/- Helper lemmas for C154: the loops of the documentation's examples. -/
namespace Vmap
open Kernel Spec
namespace Doc

theorem digits_length (f i : Nat) : (digits (f + 1) i).length =
    if i < 10 then 1 else (digits f (i / 10)).length + 1 := by
  rw [digits]; split <;> simp

theorem digits_short : ∀ (m f i : Nat), m < f → (10 ^ m ≤ i ∨ m = 0) → i < 10 ^ (m + 1) →
    (digits f i).length = m + 1
  | _, 0, _, h, _, _ => by omega
  | 0, f + 1, i, _, _, h => by rw [digits_length, if_pos (by omega)]
  | m + 1, f + 1, i, h1, h2, h3 => by
    have h2 := h2.resolve_right (by omega)
    rw [Nat.pow_succ] at h2 h3
    have := Nat.pow_pos (a := 10) (n := m) (by decide)
    rw [digits_length, if_neg (by omega), digits_short m f (i / 10) (by omega) (.inl (by omega))
      (by omega)]

theorem digits_full : ∀ (f i : Nat), 10 ^ f ≤ i → (digits (f + 1) i).length = f + 1
  | 0, i, _ => by
    rw [digits_length]; split <;> simp [digits]
  | f + 1, i, h => by
    rw [Nat.pow_succ] at h
    have := Nat.pow_pos (a := 10) (n := f) (by decide)
    rw [digits_length, if_neg (by omega), digits_full f _ (by omega)]

theorem digits_ten (i : Nat) : (digits 10 i).length + 19 = lineBytes i := by
  unfold lineBytes
  split
  · rw [digits_short 0 10 i (by omega) (.inr rfl) (by omega)]
  split
  · rw [digits_short 1 10 i (by omega) (.inl (by omega)) (by omega)]
  split
  · rw [digits_short 2 10 i (by omega) (.inl (by omega)) (by omega)]
  split
  · rw [digits_short 3 10 i (by omega) (.inl (by omega)) (by omega)]
  split
  · rw [digits_short 4 10 i (by omega) (.inl (by omega)) (by omega)]
  split
  · rw [digits_short 5 10 i (by omega) (.inl (by omega)) (by omega)]
  split
  · rw [digits_short 6 10 i (by omega) (.inl (by omega)) (by omega)]
  split
  · rw [digits_short 7 10 i (by omega) (.inl (by omega)) (by omega)]
  split
  · rw [digits_short 8 10 i (by omega) (.inl (by omega)) (by omega)]
  · rw [digits_full 9 i (by omega)]

theorem line_length (i : Nat) : (line i).length = lineBytes i := by
  rw [← digits_ten]
  simp only [line, pieces, List.flatten_cons, List.flatten_nil, List.length_append, List.length_cons,
    List.length_nil]
  omega

theorem lineBytes_ge (i : Nat) : 20 ≤ lineBytes i := by
  unfold lineBytes; repeat' split
  all_goals omega

theorem lineBytes_le (i : Nat) : lineBytes i ≤ 29 := by
  unfold lineBytes; repeat' split
  all_goals omega

theorem lineBytes_long {i : Nat} (h : 10 ≤ i) : 20 < lineBytes i := by
  unfold lineBytes; repeat' split
  all_goals omega

theorem bytesUpTo_mono {m n : Nat} (h : m ≤ n) : bytesUpTo m + 20 * (n - m) ≤ bytesUpTo n := by
  induction n with
  | zero => simp [show m = 0 by omega]
  | succ n ih =>
    by_cases hm : m = n + 1
    · subst hm; simp
    · have := ih (by omega)
      have := lineBytes_ge (n + 1)
      simp only [bytesUpTo]; omega

theorem bytesUpTo_nine : bytesUpTo 9 = 180 := by decide

theorem ascii_digits : ∀ f i, ∀ b ∈ digits f i, b < 128
  | 0, _, b, h => by simp [digits] at h
  | f + 1, i, b, h => by
    have hd (n : Nat) (hn : n < 10) : UInt8.ofNat (48 + n) < 128 := by
      rw [UInt8.lt_iff_toNat_lt]; simp; omega
    rw [digits] at h
    split at h
    · rename_i hi
      simp only [List.mem_singleton] at h
      subst h; exact hd _ hi
    · rw [List.mem_append] at h
      cases h with
      | inl h => exact ascii_digits f _ b h
      | inr h =>
        simp only [List.mem_singleton] at h
        subst h; exact hd _ (Nat.mod_lt _ (by decide))

theorem line_ascii (i : Nat) : ∀ b ∈ line i, b < 128 := by
  intro b hb
  simp only [line, pieces, List.flatten_cons, List.flatten_nil, List.append_nil, List.mem_append] at hb
  rcases hb with hb | hb | hb
  · revert b; decide
  · exact ascii_digits _ _ _ hb
  · revert b; decide

/-- Lines 1 to `n`. -/
def text : Nat → List Byte
  | 0 => []
  | n + 1 => text n ++ line (n + 1)

theorem text_length (n : Nat) : (text n).length = bytesUpTo n := by
  induction n with
  | zero => rfl
  | succ n ih => rw [text, List.length_append, ih, line_length, bytesUpTo]

theorem text_two (n : Nat) : ∃ rest, text (n + 2) = line 1 ++ (line 2 ++ rest) := by
  induction n with
  | zero => exact ⟨[], by simp [text]⟩
  | succ n ih =>
    obtain ⟨rest, ih⟩ := ih
    exact ⟨rest ++ line (n + 3), by rw [text, ih]; simp⟩

theorem upTo_prefix {d : Byte} {p : List Byte} (h : d ∉ p) (l : List Byte) :
    upTo d (p ++ d :: l) = p ++ [d] := by
  induction p with
  | nil => simp [upTo]
  | cons b p ih =>
    simp only [List.mem_cons, not_or] at h
    rw [List.cons_append, upTo, if_neg (fun e => h.1 e.symm), ih h.2]
    rfl

theorem upTo_line1 (l : List Byte) : upTo 10 (line 1 ++ l) = line 1 := by
  have h : line 1 = (line 1).dropLast ++ [10] := by decide
  rw [h, List.append_assoc]
  exact upTo_prefix (by decide) l

theorem upTo_line2 (l : List Byte) : upTo 10 (line 2 ++ l) = line 2 := by
  have h : line 2 = (line 2).dropLast ++ [10] := by decide
  rw [h, List.append_assoc]
  exact upTo_prefix (by decide) l

theorem assert_true {b : Bool} (h : b = true) : assert b = .ok () := by rw [assert, if_pos h]

theorem assert_false {b : Bool} (h : b = false) : assert b = .error .panic := by
  rw [assert, h]; rfl

/-- Room for a few lines more than the capacity before the positions run out. -/
theorem room {t : Target} {k : Kernel} {r : Ring} {n : Nat} (h : RingAt t k r n)
    (hc : 100 ≤ SeqWrite.writeCapacity r) :
    SeqWrite.writeCapacity r + 99 < posBound t (SeqWrite.writeCapacity r) := by
  obtain ⟨o, s, h1, -⟩ := h.inv
  have := h1.mirror.fits
  have h2 := h1.mirror.len_pos
  have h3 := t.lim_le_64
  simp only [SeqWrite.writeCapacity] at hc ⊢
  unfold posBound
  split <;> omega

/-- What the filling loop of the ring example does. -/
theorem fill_spec {t : Target} {C : Nat} (hC : 220 ≤ C) (hC2 : C < 2 ^ 31) : ∀ (fuel j : Nat)
    (k : Kernel) (r : Ring), RingAt t k r (bytesUpTo j) → r.fillBuf t k = .ok (text j) →
    SeqWrite.writeCapacity r = C → bytesUpTo j ≤ C → C < bytesUpTo j + 20 * fuel →
    ∃ k' r' n x, fill t fuel k r (j + 1) = .ok (some ((k', r'), x)) ∧ j ≤ n ∧ bytesUpTo n ≤ C ∧
      ((C ≤ bytesUpTo n + 20 ∧ x = .ok (n + 1) ∧ RingAt t k' r' (bytesUpTo n) ∧
          r'.fillBuf t k' = .ok (text n) ∧ SeqWrite.writeCapacity r' = C) ∨
        (bytesUpTo n + 20 < C ∧ C < bytesUpTo (n + 1) ∧ x = .error (.ofKind .writeZero) ∧
          RingAt t k' r' C ∧ SeqWrite.writeCapacity r' = C))
  | 0, j, k, r, h, hq, hc, hj, hf => by omega
  | fuel + 1, j, k, r, h, hq, hc, hj, hf => by
    obtain ⟨a, w, h1, h2, h3, -⟩ := C08_ring_lengths t k r _ h
    obtain ⟨q, sp, v⟩ := h.view
    have hw : w = C - bytesUpTo j := by
      have hq' := v.fillBuf
      rw [hq] at hq'
      injection hq' with hq'
      have h1' := v.readLen
      rw [h1] at h1'
      injection h1' with h1'
      have := congrArg List.length hq'
      rw [text_length] at this
      omega
    simp only [fill, h2, bind, Except.bind]
    by_cases hg : w > 20
    · rw [if_pos hg]
      have hl : (pieces (j + 1)).flatten.length = lineBytes (j + 1) := line_length (j + 1)
      have hroom := room h (by omega)
      obtain ⟨k1, r1, e1, f1, a1, c1⟩ := C130_ring_write_fmt t k r _ h _ w hq h2 (pieces (j + 1))
        (by omega)
      rw [e1, hl]
      rw [hl] at a1
      by_cases hfit : lineBytes (j + 1) ≤ w
      · have ht : (pieces (j + 1)).flatten.take w = line (j + 1) :=
          List.take_of_length_le (by rw [hl]; exact hfit)
        rw [ht] at f1
        rw [Nat.min_eq_left hfit] at a1
        rw [if_pos hfit]
        have hj2 := bytesUpTo_mono (Nat.zero_le j)
        have hge := lineBytes_ge (j + 1)
        simp only [assert_true (show decide (j + 1 + 1 < 2 ^ 31) = true from
          decide_eq_true (by omega))]
        obtain ⟨k', r', n, x, g1, g2, g3, g4⟩ := fill_spec hC hC2 fuel (j + 1) k1 r1 a1 f1 (by rw [c1, hc])
          (by simp only [bytesUpTo]; omega) (by simp only [bytesUpTo]; omega)
        exact ⟨k', r', n, x, g1, by omega, g3, g4⟩
      · rw [if_neg hfit]
        have hmin : bytesUpTo j + min (lineBytes (j + 1)) w = C := by omega
        rw [hmin] at a1
        exact ⟨k1, r1, j, _, rfl, Nat.le_refl _, hj, .inr ⟨by omega, by simp only [bytesUpTo]; omega,
          rfl, a1, by rw [c1, hc]⟩⟩
    · rw [if_neg hg]
      exact ⟨k, r, j, _, rfl, Nat.le_refl _, hj, .inl ⟨by omega, rfl, h, hq, hc⟩⟩

theorem inf_room {t : Target} {k : Kernel} {r : InfiniteRing} {n : Nat} (h : InfAt t k r n)
    (hc : 100 ≤ SeqWrite.writeCapacity r) :
    SeqWrite.writeCapacity r + 99 < posBound t (SeqWrite.writeCapacity r) ∧
      SeqWrite.writeCapacity r + 99 < t.lim := by
  obtain ⟨o, s, h1, -⟩ := h.inv
  have := h1.mirror.fits
  have h3 := t.lim_le_64
  simp only [SeqWrite.writeCapacity] at hc ⊢
  unfold posBound
  split <;> omega

/-- What the loop of the infinite ring example does. -/
theorem flood_spec {t : Target} {C : Nat} (hC : 220 ≤ C) (hC2 : C < 2 ^ 31) : ∀ (fuel j : Nat)
    (k : Kernel) (r : InfiniteRing), InfAt t k r (bytesUpTo j) →
    r.fillBuf t k = .ok (lastN C (text j)) → SeqWrite.writeCapacity r = C →
    bytesUpTo j ≤ C + 29 → C + 29 < bytesUpTo j + 20 * fuel →
    ∃ k' r' n, flood t fuel k r (j + 1) (bytesUpTo j) = .ok (some ((k', r'), bytesUpTo n)) ∧
      C ≤ bytesUpTo n ∧ bytesUpTo n ≤ C + 29 ∧ (n = j ∨ ∃ m, n = m + 1 ∧ bytesUpTo m < C) ∧
      InfAt t k' r' (bytesUpTo n) ∧
      r'.fillBuf t k' = .ok (lastN C (text n)) ∧ SeqWrite.writeCapacity r' = C
  | 0, j, k, r, h, hq, hc, hj, hf => by omega
  | fuel + 1, j, k, r, h, hq, hc, hj, hf => by
    simp only [flood, hc]
    by_cases hg : bytesUpTo j < C
    · rw [if_pos hg]
      have hl := line_length (j + 1)
      have hge := lineBytes_ge (j + 1)
      have hle := lineBytes_le (j + 1)
      obtain ⟨hr1, hr2⟩ := inf_room h (by omega)
      have hb : bytesUpTo j + min (line (j + 1)).length (SeqWrite.writeCapacity r) <
          posBound t (SeqWrite.writeCapacity r) := by omega
      obtain ⟨k1, r1, e1, f1, c1, -⟩ := C20_infinite_write_all t k r _ h _ hq (line (j + 1)) hb
      have a1 := InfAt.all h hb e1
      have hm : bytesUpTo j + min (line (j + 1)).length (SeqWrite.writeCapacity r) =
          bytesUpTo (j + 1) := by simp only [bytesUpTo]; omega
      rw [hm] at a1
      rw [hc, lastN_front] at f1
      have hadd : addU t (bytesUpTo j) (line (j + 1)).length = .ok (bytesUpTo (j + 1)) := by
        rw [addU_ok (by omega), hl, bytesUpTo]
      have hj2 := bytesUpTo_mono (Nat.zero_le j)
      simp only [InfiniteRing.writeFmt, e1, bind, Except.bind, pure, Except.pure, hadd,
        assert_true (show decide (j + 1 + 1 < 2 ^ 31) = true from decide_eq_true (by omega))]
      obtain ⟨k', r', n, g1, g2, g3, g4, g5⟩ := flood_spec hC hC2 fuel (j + 1) k1 r1 a1 f1
        (by rw [c1, hc]) (by simp only [bytesUpTo]; omega) (by simp only [bytesUpTo]; omega)
      refine ⟨k', r', n, g1, g2, g3, .inr ?_, g5⟩
      cases g4 with
      | inl e => exact ⟨j, e, hg⟩
      | inr e => exact e
    · rw [if_neg hg]
      exact ⟨k, r, j, rfl, by omega, hj, .inl rfl, h, hq, hc⟩

end Doc
end Vmap
