import Verif.Proofs.Size
/- Property theorems C01–C05 and C70: `vmap::Size`. -/
namespace Vmap
open Spec

/-! ### C01 -/

/-- C01: for a power-of-two unit, `round(len)` is the smallest multiple of the unit that is
at least `len`, on every target and profile, whenever `len + unit` fits in `usize`. -/
theorem C01_round_least_multiple (t : Target) (k len : Nat) (hk : k < t.width.bits)
    (hfit : len + 2 ^ k < t.lim) :
    ∃ r, (Size.withSize (2 ^ k)).round t len = .ok r ∧ IsRoundUp (2 ^ k) len r :=
  ⟨_, round_eq hk hfit, isRoundUp_div (Nat.two_pow_pos k)⟩

example : (12 < Width.w64.bits) ∧ 4097 + 2 ^ 12 < (Target.mk .w64 true).lim := by decide
example : (Size.withSize (2 ^ 12)).round ⟨.w64, true⟩ 4097 = .ok 8192 := by decide

/-! ### C02 -/

/-- C02: `truncate` is the largest multiple of the unit not above `len`, `offset` is the rest;
neither panics, for every `usize` argument. -/
theorem C02_truncate_offset_split (t : Target) (k len : Nat) (hk : k < t.width.bits)
    (hl : len < t.lim) :
    ∃ a b, (Size.withSize (2 ^ k)).truncate t len = .ok a ∧
      (Size.withSize (2 ^ k)).offset t len = .ok b ∧
      IsRoundDown (2 ^ k) len a ∧ b < 2 ^ k ∧ a + b = len := by
  refine ⟨_, _, truncate_eq hk hl, offset_eq, isRoundDown_div (Nat.two_pow_pos k),
    Nat.mod_lt _ (Nat.two_pow_pos k), ?_⟩
  have := Nat.div_add_mod len (2 ^ k)
  rw [Nat.mul_comm] at this; exact this

example : (16 < Width.w32.bits) ∧ 4294967295 < (Target.mk .w32 false).lim := by decide
example : (Size.withSize (2 ^ 16)).truncate ⟨.w32, false⟩ 4294967295 = .ok 4294901760 ∧
    (Size.withSize (2 ^ 16)).offset ⟨.w32, false⟩ 4294967295 = .ok 65535 := by decide

/-! ### C03 -/

/-- C03 (count): `count(len)` is the number of units needed for `len` bytes: the least `c`
with `len ≤ c * unit`, when it fits `u32`. -/
theorem C03_count (t : Target) (k len : Nat) (hk : k < t.width.bits)
    (hfit : len + 2 ^ k < t.lim) (hc : len ≤ (2 ^ 32 - 1) * 2 ^ k) :
    ∃ c, (Size.withSize (2 ^ k)).count t len = .ok c ∧ len ≤ c * 2 ^ k ∧
      ∀ d, len ≤ d * 2 ^ k → c ≤ d := by
  have hu := Nat.two_pow_pos k
  obtain ⟨h1, h2, h3⟩ := isRoundUp_div (u := 2 ^ k) (len := len) hu
  refine ⟨(len + 2 ^ k - 1) / 2 ^ k, ?_, h2, ?_⟩
  · unfold Size.count
    rw [round_eq hk hfit]
    simp only [bind, Except.bind, Size.withSize]
    rw [trailingZeros_pow hk]
    unfold shrU
    rw [if_pos hk, Nat.shiftRight_eq_div_pow, Nat.mul_div_cancel _ hu]
    simp only [pure, Except.pure, asU32]
    rw [Nat.mod_eq_of_lt]
    have := h3 _ (Nat.dvd_mul_left (2 ^ k) (2 ^ 32 - 1)) hc
    have := Nat.le_of_mul_le_mul_right this hu
    omega
  · intro d hd
    have := h3 _ (Nat.dvd_mul_left (2 ^ k) d) hd
    exact Nat.le_of_mul_le_mul_right this hu

/-- C03 (size): `size(count) = count * unit` when that fits `usize`. -/
theorem C03_size (t : Target) (k c : Nat) (hk : k < t.width.bits)
    (hfit : c * 2 ^ k < t.lim) :
    (Size.withSize (2 ^ k)).size t c = .ok (c * 2 ^ k) := by
  unfold Size.size Size.withSize
  rw [trailingZeros_pow hk]
  unfold shlU
  rw [if_pos hk, Nat.shiftLeft_eq, Nat.mod_eq_of_lt hfit]

/-- C03 (inverse): `size(count(len)) = round(len)`. -/
theorem C03_size_count (t : Target) (k len : Nat) (hk : k < t.width.bits)
    (hfit : len + 2 ^ k < t.lim) (hc : len ≤ (2 ^ 32 - 1) * 2 ^ k) :
    ∃ c r, (Size.withSize (2 ^ k)).count t len = .ok c ∧
      (Size.withSize (2 ^ k)).round t len = .ok r ∧
      (Size.withSize (2 ^ k)).size t c = .ok r := by
  obtain ⟨c, h1, h2, h3⟩ := C03_count t k len hk hfit hc
  obtain ⟨r, e, hr1, hr2, hr3⟩ := C01_round_least_multiple t k len hk hfit
  have hu := Nat.two_pow_pos k
  have hcr : c * 2 ^ k = r := by
    apply Nat.le_antisymm
    · obtain ⟨d, rfl⟩ := hr1
      rw [Nat.mul_comm] at hr2
      rw [Nat.mul_comm (2 ^ k) d]
      exact Nat.mul_le_mul_right _ (h3 d hr2)
    · exact hr3 _ (Nat.dvd_mul_left _ _) h2
  refine ⟨c, r, h1, e, ?_⟩
  rw [← hcr]
  apply C03_size t k c hk
  have : r < len + 2 ^ k := by
    rw [round_eq hk hfit] at e
    injection e with e
    have := Nat.div_mul_le_self (len + 2 ^ k - 1) (2 ^ k)
    omega
  omega

example : (12 < Width.w64.bits) ∧ 10000 + 2 ^ 12 < (Target.mk .w64 true).lim ∧
    10000 ≤ (2 ^ 32 - 1) * 2 ^ 12 := by decide
example : (Size.withSize (2 ^ 12)).count ⟨.w64, true⟩ 10000 = .ok 3 ∧
    (Size.withSize (2 ^ 12)).size ⟨.w64, true⟩ 3 = .ok 12288 := by decide

/-! ### C04 — full statement:
`∀ t k len r, k < bits → len < lim → round t len = .ok r → len ≤ r`.
False in release builds (`C04_round_shrinks`); proved for debug builds, and for release
builds whenever `len + unit ≤ 2^bits`. -/

/-- C04 (partial; missing: release builds with `len` within one unit of `usize::MAX`). -/
theorem C04_round_not_below_partial (t : Target) (k len r : Nat) (hk : k < t.width.bits)
    (_hl : len < t.lim) (hrel : t.checks = false → len + 2 ^ k ≤ t.lim)
    (h : (Size.withSize (2 ^ k)).round t len = .ok r) : len ≤ r := by
  have hu := Nat.two_pow_pos k
  by_cases hfit : len + 2 ^ k < t.lim
  · rw [round_eq hk hfit] at h
    injection h with h
    exact h ▸ (isRoundUp_div hu).2.1
  · cases hc : t.checks with
    | true => rw [round_panic hfit hc] at h; cases h
    | false =>
      have hle := hrel hc
      rw [round_edge hk (by omega) hc] at h
      injection h with h
      rw [← h]
      apply (isRoundDown_div hu).2.2
      · rw [show len = t.lim - 2 ^ k by omega]
        apply Nat.dvd_sub _ (Nat.dvd_refl _)
        exact Nat.pow_dvd_pow 2 (Nat.le_of_lt hk)
      · have := pow_lt_lim hk; omega

/-- C04 (refuted in full): in a release build `round(usize::MAX - 1)` to 4096 is `0`. -/
theorem C04_round_shrinks :
    ¬ ∀ (t : Target) (k len r : Nat), k < t.width.bits → len < t.lim →
      (Size.withSize (2 ^ k)).round t len = .ok r → len ≤ r := by
  intro h
  have := h ⟨.w64, false⟩ 12 (2 ^ 64 - 2) 0 (by decide) (by decide) (by decide)
  omega

example : ∃ (t : Target) (k len r : Nat), k < t.width.bits ∧ len < t.lim ∧
    (t.checks = false → len + 2 ^ k ≤ t.lim) ∧
    (Size.withSize (2 ^ k)).round t len = .ok r :=
  ⟨⟨.w64, false⟩, 12, 2 ^ 64 - 4096, 2 ^ 64 - 4096, by decide⟩

/-! ### C05 -/

/-- C05: `bounds(ptr, len)` is the smallest unit-aligned range containing the (non-empty)
range `[ptr, ptr+len)`, as long as the enclosing range and one more unit fit. -/
theorem C05_bounds_enclosing (t : Target) (k ptr len : Nat) (hk : k < t.width.bits)
    (hlen : 0 < len) (hfit : len + 2 * 2 ^ k ≤ t.lim) :
    ∃ p n, (Size.withSize (2 ^ k)).bounds t ptr len = .ok (p, n) ∧
      IsEnclosing (2 ^ k) ptr len p n := by
  have hu := Nat.two_pow_pos k
  have hm := Nat.mod_lt ptr hu
  refine ⟨ptr - ptr % 2 ^ k, (len + ptr % 2 ^ k + 2 ^ k - 1) / 2 ^ k * 2 ^ k, ?_,
    isEnclosing_div hu hlen⟩
  unfold Size.bounds
  rw [offset_eq]
  simp only [bind, Except.bind]
  rw [addU_ok (by omega)]
  simp only
  rw [round_eq hk (by omega)]
  rfl

/-- C05 (empty ranges): for `len = 0` the result is the unit of `ptr`, or empty if `ptr` is
aligned. -/
theorem C05_bounds_empty (t : Target) (k ptr : Nat) (hk : k < t.width.bits)
    (hfit : 2 * 2 ^ k ≤ t.lim) :
    ∃ p n, (Size.withSize (2 ^ k)).bounds t ptr 0 = .ok (p, n) ∧
      IsRoundDown (2 ^ k) ptr p ∧ n = if 2 ^ k ∣ ptr then 0 else 2 ^ k := by
  have hu := Nat.two_pow_pos k
  have hm := Nat.mod_lt ptr hu
  refine ⟨ptr / 2 ^ k * 2 ^ k, (0 + ptr % 2 ^ k + 2 ^ k - 1) / 2 ^ k * 2 ^ k, ?_,
    isRoundDown_div hu, ?_⟩
  · unfold Size.bounds
    rw [offset_eq]
    simp only [bind, Except.bind]
    rw [addU_ok (by omega)]
    simp only
    rw [round_eq hk (by omega)]
    have := Nat.div_add_mod ptr (2 ^ k)
    rw [Nat.mul_comm] at this
    rw [show ptr - ptr % 2 ^ k = ptr / 2 ^ k * 2 ^ k by omega]
    rfl
  · split
    · rename_i h
      rw [Nat.mod_eq_zero_of_dvd h, Nat.div_eq_of_lt (by omega), Nat.zero_mul]
    · rename_i h
      rw [Nat.dvd_iff_mod_eq_zero] at h
      have : (0 + ptr % 2 ^ k + 2 ^ k - 1) / 2 ^ k = 1 := by
        apply Nat.div_eq_of_lt_le <;> omega
      rw [this, Nat.one_mul]

example : (12 < Width.w64.bits) ∧ 0 < 4096 ∧ 4096 + 2 * 2 ^ 12 ≤ (Target.mk .w64 true).lim := by
  decide
example : (Size.withSize (2 ^ 12)).bounds ⟨.w64, true⟩ 0x5001 4096 = .ok (0x5000, 8192) := by
  decide

/-! ### C70 — full statement: `round(len)` returns its mathematical result whenever that
result fits in `usize`.  False in debug builds for exactly one argument per unit: the largest
multiple `usize::MAX + 1 - unit` (the intermediate `len + unit` overflows).  -/

/-- C70 (partial; missing: debug builds at `len = usize::MAX + 1 - unit`). -/
theorem C70_round_representable_partial (t : Target) (k len r : Nat) (hk : k < t.width.bits)
    (hr : IsRoundUp (2 ^ k) len r) (hfit : r < t.lim)
    (hdbg : t.checks = true → len + 2 ^ k ≠ t.lim) :
    (Size.withSize (2 ^ k)).round t len = .ok r := by
  have hu := Nat.two_pow_pos k
  have hdl : 2 ^ k ∣ t.lim := Nat.pow_dvd_pow 2 (Nat.le_of_lt hk)
  have hle : r + 2 ^ k ≤ t.lim := by
    obtain ⟨a, rfl⟩ := hr.1
    obtain ⟨b, hb⟩ := hdl
    have hab : a < b := by
      rw [hb] at hfit; exact Nat.lt_of_mul_lt_mul_left hfit
    rw [hb, ← Nat.mul_succ]
    exact Nat.mul_le_mul_left _ hab
  by_cases hf : len + 2 ^ k < t.lim
  · rw [round_eq hk hf]
    exact congrArg _ (IsRoundUp.unique (isRoundUp_div hu) hr)
  · have hlr := hr.2.1
    have e : len + 2 ^ k = t.lim := by omega
    cases hc : t.checks with
    | true => exact absurd e (hdbg hc)
    | false =>
      have hlp := t.lim_pos
      rw [round_edge hk e hc]
      congr 1
      have hrl : r = len := by omega
      rw [hrl]
      have hd := isRoundDown_div (u := 2 ^ k) (len := t.lim - 1) hu
      apply Nat.le_antisymm
      · have h1 := hd.1
        obtain ⟨a, ha⟩ := h1
        have hb : t.lim - 1 < t.lim := by omega
        obtain ⟨b, hb⟩ := hdl
        obtain ⟨c, hcc⟩ := hr.1
        rw [ha]
        have hlt : 2 ^ k * a < 2 ^ k * b := by rw [← hb, ← ha]; have := hd.2.1; omega
        have hab := Nat.lt_of_mul_lt_mul_left hlt
        have : 2 ^ k * (a + 1) ≤ 2 ^ k * b := Nat.mul_le_mul_left _ hab
        rw [Nat.mul_add, Nat.mul_one, ← hb] at this
        omega
      · exact hd.2.2 len (hrl ▸ hr.1) (by omega)

/-- C70 (refuted in full): a debug build panics on `round(usize::MAX - 4095)` although that
value is already a multiple of 4096. -/
theorem C70_round_panics_on_multiple :
    IsRoundUp (2 ^ 12) (2 ^ 64 - 2 ^ 12) (2 ^ 64 - 2 ^ 12) ∧
    (Size.withSize (2 ^ 12)).round ⟨.w64, true⟩ (2 ^ 64 - 2 ^ 12) = .error .panic := by
  refine ⟨⟨by decide, Nat.le_refl _, fun m _ h => h⟩, by decide⟩

example : IsRoundUp (2 ^ 12) 5000 8192 ∧ 8192 < (Target.mk .w64 true).lim := by
  refine ⟨⟨by decide, by decide, ?_⟩, by decide⟩
  rintro m ⟨q, rfl⟩ h; omega

end Vmap
