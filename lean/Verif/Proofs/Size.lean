import Verif.Model.Size
import Verif.Spec.Size
/- Helper lemmas about `Size` arithmetic. -/
namespace Vmap

theorem Target.lim_pos (t : Target) : 0 < t.lim := Nat.two_pow_pos _

theorem Target.lim_cases (t : Target) :
    t.lim = 4294967296 ∨ t.lim = 18446744073709551616 := by
  rcases t with ⟨w, c⟩; cases w <;> simp [Target.lim, Width.bits]

theorem Target.lim_le_64 (t : Target) : t.lim ≤ lim64 := by
  have := t.lim_cases; unfold lim64; omega

theorem pow_lt_lim {t : Target} {k : Nat} (hk : k < t.width.bits) : 2 ^ k < t.lim :=
  Nat.pow_lt_pow_right (by decide) hk

theorem addU_ok {t : Target} {a b : Nat} (h : a + b < t.lim) : addU t a b = .ok (a + b) := by
  simp [addU, addL, h]

theorem subU_ok {t : Target} {a b : Nat} (h : b ≤ a) : subU t a b = .ok (a - b) := by
  simp [subU, subL, h]

theorem addU_panic {t : Target} {a b : Nat} (h : ¬ a + b < t.lim) (hc : t.checks = true) :
    addU t a b = .error .panic := by
  simp only [addU, addL]; rw [if_neg h, if_pos hc]

theorem addU_wrap {t : Target} {a b : Nat} (h : ¬ a + b < t.lim) (hc : t.checks = false) :
    addU t a b = .ok ((a + b) % t.lim) := by
  simp only [addU, addL]; rw [if_neg h, hc]; rfl

theorem add64_ok {t : Target} {a b : Nat} (h : a + b < lim64) : add64 t a b = .ok (a + b) := by
  simp [add64, addL, h]

theorem sub64_ok {t : Target} {a b : Nat} (h : b ≤ a) : sub64 t a b = .ok (a - b) := by
  simp [sub64, subL, h]

/-- Masking with the complement of `2^k - 1` clears the low `k` bits. -/
theorem and_notU {t : Target} {k len : Nat} (hk : k < t.width.bits) (hl : len < t.lim) :
    len &&& notU t (2 ^ k - 1) = len / 2 ^ k * 2 ^ k := by
  unfold notU
  have h2 : t.lim - 1 - (2 ^ k - 1) = t.lim - 2 ^ k := by
    have := Nat.two_pow_pos k; omega
  rw [h2]
  have key : t.lim - 2 ^ k = (2 ^ (t.width.bits - k) - 1) * 2 ^ k := by
    rw [Nat.sub_mul, ← Nat.pow_add, Nat.sub_add_cancel (by omega)]; simp [Target.lim]
  rw [key]
  apply Nat.eq_of_testBit_eq
  intro i
  rw [Nat.testBit_and, Nat.testBit_mul_two_pow, Nat.testBit_mul_two_pow]
  rw [Nat.testBit_div_two_pow, Nat.testBit_two_pow_sub_one]
  by_cases hi : k ≤ i
  · simp only [hi, decide_true, Bool.true_and]
    rw [show i - k + k = i by omega]
    by_cases hb : i < t.width.bits
    · simp [show i - k < t.width.bits - k by omega]
    · have : len.testBit i = false := by
        apply Nat.testBit_lt_two_pow
        exact Nat.lt_of_lt_of_le hl (Nat.pow_le_pow_right (by decide) (by omega))
      simp [this]
  · simp [hi]

theorem truncate_eq {t : Target} {k len : Nat} (hk : k < t.width.bits) (hl : len < t.lim) :
    (Size.withSize (2 ^ k)).truncate t len = .ok (len / 2 ^ k * 2 ^ k) := by
  unfold Size.truncate Size.withSize
  rw [subU_ok (Nat.two_pow_pos k)]
  simp only [bind, Except.bind, pure, Except.pure]
  rw [and_notU hk hl]

theorem offset_eq {t : Target} {k len : Nat} :
    (Size.withSize (2 ^ k)).offset t len = .ok (len % 2 ^ k) := by
  unfold Size.offset Size.withSize
  rw [subU_ok (Nat.two_pow_pos k)]
  simp only [bind, Except.bind, pure, Except.pure, Nat.and_two_pow_sub_one_eq_mod]

theorem round_eq {t : Target} {k len : Nat} (hk : k < t.width.bits)
    (hl : len + 2 ^ k < t.lim) :
    (Size.withSize (2 ^ k)).round t len = .ok ((len + 2 ^ k - 1) / 2 ^ k * 2 ^ k) := by
  have hp := Nat.two_pow_pos k
  unfold Size.round
  simp only [Size.withSize]
  rw [addU_ok hl]
  simp only [bind, Except.bind]
  rw [subU_ok (by omega)]
  simp only
  exact truncate_eq hk (by omega)

/-- At `len = usize::MAX + 1 - unit` a release build still rounds correctly. -/
theorem round_edge {t : Target} {k len : Nat} (hk : k < t.width.bits)
    (e : len + 2 ^ k = t.lim) (hc : t.checks = false) :
    (Size.withSize (2 ^ k)).round t len = .ok ((t.lim - 1) / 2 ^ k * 2 ^ k) := by
  have hlp := t.lim_pos
  unfold Size.round
  have hadd : addU t len (Size.withSize (2 ^ k)).unit = .ok 0 := by
    have := addU_wrap (t := t) (a := len) (b := 2 ^ k) (by omega) hc
    rw [e, Nat.mod_self] at this; exact this
  have hsub : subU t 0 1 = .ok (t.lim - 1) := by
    have hm : (0 + t.lim - 1) % t.lim = t.lim - 1 := by
      rw [Nat.zero_add]; exact Nat.mod_eq_of_lt (by omega)
    simp only [subU, subL]
    rw [if_neg (by decide), hc, hm]; rfl
  rw [hadd]
  simp only [bind, Except.bind]
  rw [hsub]
  exact truncate_eq hk (by omega)

theorem round_panic {t : Target} {k len : Nat} (e : ¬ len + 2 ^ k < t.lim)
    (hc : t.checks = true) : (Size.withSize (2 ^ k)).round t len = .error .panic := by
  unfold Size.round
  rw [show addU t len (Size.withSize (2 ^ k)).unit = .error .panic from addU_panic e hc]
  rfl

/-- In a release build, rounding a value within one unit of the top wraps to zero. -/
theorem round_wrap {t : Target} {k len : Nat} (hk : k < t.width.bits) (hl : len < t.lim)
    (h : t.lim < len + 2 ^ k) (hc : t.checks = false) :
    (Size.withSize (2 ^ k)).round t len = .ok 0 := by
  have hlt := pow_lt_lim hk
  unfold Size.round
  have hadd : addU t len (Size.withSize (2 ^ k)).unit = .ok (len + 2 ^ k - t.lim) := by
    have := addU_wrap (t := t) (a := len) (b := 2 ^ k) (by omega) hc
    rw [Nat.mod_eq_sub_mod (by omega), Nat.mod_eq_of_lt (by omega)] at this
    exact this
  rw [hadd]
  simp only [bind, Except.bind]
  rw [subU_ok (by omega)]
  have := truncate_eq (t := t) hk (len := len + 2 ^ k - t.lim - 1) (by omega)
  rw [Nat.div_eq_of_lt (by omega), Nat.zero_mul] at this
  exact this

theorem isRoundUp_div {u len : Nat} (hu : 0 < u) :
    Spec.IsRoundUp u len ((len + u - 1) / u * u) := by
  have hd := Nat.div_add_mod (len + u - 1) u
  have hm := Nat.mod_lt (len + u - 1) hu
  rw [Nat.mul_comm] at hd
  refine ⟨Nat.dvd_mul_left _ _, by omega, ?_⟩
  rintro m ⟨q, rfl⟩ h
  rw [Nat.mul_comm u q]
  apply Nat.mul_le_mul_right
  have : (len + u - 1) / u < q + 1 := by
    rw [Nat.div_lt_iff_lt_mul hu, Nat.add_mul, Nat.one_mul, Nat.mul_comm q u]; omega
  omega

theorem isRoundDown_div {u len : Nat} (hu : 0 < u) :
    Spec.IsRoundDown u len (len / u * u) := by
  refine ⟨Nat.dvd_mul_left _ _, Nat.div_mul_le_self _ _, ?_⟩
  rintro m ⟨q, rfl⟩ h
  rw [Nat.mul_comm u q]
  apply Nat.mul_le_mul_right
  rw [Nat.le_div_iff_mul_le hu, Nat.mul_comm q u]; exact h

theorem IsRoundUp.unique {u l a b : Nat} (ha : Spec.IsRoundUp u l a)
    (hb : Spec.IsRoundUp u l b) : a = b :=
  Nat.le_antisymm (ha.2.2 b hb.1 hb.2.1) (hb.2.2 a ha.1 ha.2.1)

theorem tzAux_pow (fuel k : Nat) (h : k ≤ fuel) (hf : k < fuel) : tzAux fuel (2 ^ k) = k := by
  induction fuel generalizing k with
  | zero => omega
  | succ f ih =>
    unfold tzAux
    cases k with
    | zero => simp
    | succ k =>
      have : 2 ^ (k + 1) % 2 = 0 := by rw [Nat.pow_succ]; omega
      rw [if_neg (by omega), Nat.pow_succ, Nat.mul_div_cancel _ (by decide)]
      rw [ih k (by omega) (by omega)]

theorem trailingZeros_pow {t : Target} {k : Nat} (hk : k < t.width.bits) :
    trailingZeros t (2 ^ k) = k := tzAux_pow _ _ (by omega) hk

/-- Enclosing range of `[ptr, ptr+len)`. -/
theorem isEnclosing_div {u ptr len : Nat} (hu : 0 < u) (hlen : 0 < len) :
    Spec.IsEnclosing u ptr len (ptr - ptr % u) ((len + ptr % u + u - 1) / u * u) := by
  have hr := isRoundUp_div (len := len + ptr % u) hu
  obtain ⟨h1, h2, h3⟩ := hr
  have hm := Nat.mod_le ptr u
  have hlt := Nat.mod_lt ptr hu
  have hdvd : u ∣ ptr - ptr % u := Nat.dvd_sub_mod ptr
  refine ⟨hdvd, h1, by omega, by omega, ?_⟩
  intro p' n' hp' hn' hle hge
  have hd2 : p' ≤ ptr - ptr % u := by
    have := (isRoundDown_div (u := u) (len := ptr) hu).2.2 p' hp' hle
    have e := Nat.div_add_mod ptr u
    rw [Nat.mul_comm] at e; omega
  refine ⟨hd2, ?_⟩
  have hdd : u ∣ p' + n' - (ptr - ptr % u) := Nat.dvd_sub (Nat.dvd_add hp' hn') hdvd
  have := h3 _ hdd (by omega)
  omega

end Vmap
