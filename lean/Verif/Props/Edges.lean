import Verif.Props.Exact
import Verif.Props.MapRange
/-
`Size::bounds` and the range calls of maps at the end of the address space: exactly which arguments
give the enclosing range (C05), and what a range call does in every case in which `off + len`
overflows in a release build (C44).
-/
namespace Vmap
open Kernel Spec

/-! ### C05 -/

/-- `bounds` in terms of `round`. -/
theorem bounds_of_round {t : Target} {k ptr len s n : Nat} (hs : addU t len (ptr % 2 ^ k) = .ok s)
    (hr : (Size.withSize (2 ^ k)).round t s = .ok n) :
    (Size.withSize (2 ^ k)).bounds t ptr len = .ok (ptr - ptr % 2 ^ k, n) := by
  unfold Size.bounds
  rw [offset_eq]
  simp only [bind, Except.bind]
  rw [hs]
  simp only
  rw [hr]
  rfl

theorem pow_dvd_lim {t : Target} {k : Nat} (hk : k < t.width.bits) : 2 ^ k ∣ t.lim :=
  Nat.pow_dvd_pow 2 (Nat.le_of_lt hk)

/-- The release-build edge: `len + unit = usize::MAX + 1` is rounded to itself when the unit divides
it. -/
theorem round_edge_self {t : Target} {k len : Nat} (hk : k < t.width.bits)
    (e : len + 2 ^ k = t.lim) (hc : t.checks = false) :
    (Size.withSize (2 ^ k)).round t len = .ok len := by
  have hu := Nat.two_pow_pos k
  have hd : 2 ^ k ∣ len := by
    have h1 := pow_dvd_lim (t := t) hk
    rw [← e] at h1
    exact (Nat.dvd_add_left (Nat.dvd_refl _)).mp h1
  exact C70_round_representable_partial t k len len hk
    ⟨hd, Nat.le_refl _, fun m' _ h => h⟩ (by omega) (fun h => by rw [hc] at h; cases h)

/-- C05 exactly: for a non-empty range (of fewer bytes than the address space has), `bounds` returns
the smallest enclosing unit-aligned range if and only if the length, the offset of the pointer in its
unit and one more unit together are less than the size of the address space, or equal to it in a
release build. -/
theorem C05_exact (t : Target) (k ptr len : Nat) (hk : k < t.width.bits) (hlen : 0 < len)
    (hl : len < t.lim) :
    (∃ p n, (Size.withSize (2 ^ k)).bounds t ptr len = .ok (p, n) ∧
      IsEnclosing (2 ^ k) ptr len p n) ↔
    (ptr % 2 ^ k + len + 2 ^ k < t.lim ∨
      (t.checks = false ∧ ptr % 2 ^ k + len + 2 ^ k = t.lim)) := by
  have hu := Nat.two_pow_pos k
  have hm := Nat.mod_lt ptr hu
  have hul : 2 ^ k < t.lim := Nat.pow_lt_pow_right (a := 2) (by omega) hk
  have hmle := Nat.mod_le ptr (2 ^ k)
  constructor
  · rintro ⟨p, n, hb, -, -, h3, h4, -⟩
    by_cases hs : len + ptr % 2 ^ k < t.lim
    · by_cases h1 : len + ptr % 2 ^ k + 2 ^ k < t.lim
      · left; omega
      · cases hc : t.checks with
        | true =>
          unfold Size.bounds at hb
          rw [offset_eq] at hb
          simp only [bind, Except.bind] at hb
          rw [addU_ok hs] at hb
          simp only at hb
          rw [round_panic h1 hc] at hb
          cases hb
        | false =>
          by_cases h2 : len + ptr % 2 ^ k + 2 ^ k = t.lim
          · right; exact ⟨rfl, by omega⟩
          · rw [bounds_of_round (addU_ok hs)
              (C04_round_zero t k _ hk hs hc (by omega))] at hb
            injection hb with hb
            injection hb with e1 e2
            omega
    · exfalso
      cases hc : t.checks with
      | true =>
        unfold Size.bounds at hb
        rw [offset_eq] at hb
        simp only [bind, Except.bind] at hb
        rw [addU_panic hs hc] at hb
        cases hb
      | false =>
        have ha := addU_wrap hs hc
        rw [show (len + ptr % 2 ^ k) % t.lim = len + ptr % 2 ^ k - t.lim from
          (Nat.mod_eq_sub_mod (by omega)).trans (Nat.mod_eq_of_lt (by omega))] at ha
        have hd := pow_dvd_lim (t := t) hk
        have h2u : 2 ^ k + 2 ^ k ≤ t.lim := by
          obtain ⟨a, ha⟩ := hd
          have : 2 ≤ a := by
            rcases a with _ | _ | a
            · omega
            · omega
            · omega
          have := Nat.mul_le_mul_left (2 ^ k) this
          omega
        have hr : ∃ r, (Size.withSize (2 ^ k)).round t (len + ptr % 2 ^ k - t.lim) = .ok r ∧
            r < t.lim := by
          by_cases h1 : len + ptr % 2 ^ k - t.lim + 2 ^ k < t.lim
          · refine ⟨_, round_eq hk h1, ?_⟩
            have := Nat.div_mul_le_self (len + ptr % 2 ^ k - t.lim + 2 ^ k - 1) (2 ^ k)
            omega
          · omega
        obtain ⟨r, hr, hrl⟩ := hr
        rw [bounds_of_round ha hr] at hb
        injection hb with hb
        injection hb with e1 e2
        omega
  · rintro (h | ⟨hc, h⟩)
    · exact ⟨_, _, bounds_of_round (addU_ok (by omega)) (round_eq hk (by omega)),
        isEnclosing_div hu hlen⟩
    · refine ⟨_, _, bounds_of_round (addU_ok (by omega)) (round_edge_self hk (by omega) hc), ?_⟩
      have := isEnclosing_div (ptr := ptr) hu hlen
      have hd : 2 ^ k ∣ len + ptr % 2 ^ k := by
        have h1 := pow_dvd_lim (t := t) hk
        rw [← h, show ptr % 2 ^ k + len + 2 ^ k = len + ptr % 2 ^ k + 2 ^ k by omega] at h1
        exact (Nat.dvd_add_left (Nat.dvd_refl _)).mp h1
      have e : (len + ptr % 2 ^ k + 2 ^ k - 1) / 2 ^ k * 2 ^ k = len + ptr % 2 ^ k := by
        obtain ⟨c, hc⟩ := hd
        rw [hc, show 2 ^ k * c + 2 ^ k - 1 = 2 ^ k - 1 + 2 ^ k * c by omega,
          Nat.add_mul_div_left _ _ hu, Nat.div_eq_of_lt (by omega), Nat.zero_add, Nat.mul_comm]
      rwa [e] at this

/-- C05 as it is stated: a non-empty range that lies in the address space, above the first unit, has
its enclosing range returned (a range that ends with the last byte of the address space: above the
first two units). -/
theorem C05_in_space (t : Target) (k ptr len : Nat) (hk : k < t.width.bits) (hlen : 0 < len)
    (hlo : 2 ^ k ≤ ptr) (hhi : ptr + len ≤ t.lim) (htop : ptr + len = t.lim → 2 * 2 ^ k ≤ ptr) :
    ∃ p n, (Size.withSize (2 ^ k)).bounds t ptr len = .ok (p, n) ∧
      IsEnclosing (2 ^ k) ptr len p n := by
  have hu := Nat.two_pow_pos k
  have hm := Nat.mod_lt ptr hu
  have hdm := Nat.div_add_mod ptr (2 ^ k)
  have hq : 1 ≤ ptr / 2 ^ k := (Nat.one_le_div_iff hu).mpr hlo
  have hq' := Nat.mul_le_mul_left (2 ^ k) hq
  refine (C05_exact t k ptr len hk hlen (by omega)).mpr (Or.inl ?_)
  by_cases h : ptr + len = t.lim
  · have h2 : 2 ≤ ptr / 2 ^ k := (Nat.le_div_iff_mul_le hu).mpr (htop h)
    have := Nat.mul_le_mul_left (2 ^ k) h2
    omega
  · omega

-- the last page but one of a 64-bit address space, and a range ending with the last byte
example : (12 < Width.w64.bits) ∧ 0 < 4096 ∧ 2 ^ 12 ≤ 2 ^ 64 - 8191 ∧
    (2 ^ 64 - 8191) + 4096 ≤ (Target.mk .w64 true).lim := by decide
example : (Size.withSize (2 ^ 12)).bounds ⟨.w64, true⟩ (2 ^ 64 - 5000) 5000 =
    .ok (2 ^ 64 - 8192, 8192) := by decide +kernel
-- the one range above the first unit for which a debug build panics
example : (Size.withSize (2 ^ 12)).bounds ⟨.w64, true⟩ 4096 (2 ^ 64 - 4096) = .error .panic ∧
    (Size.withSize (2 ^ 12)).bounds ⟨.w64, false⟩ 4096 (2 ^ 64 - 4096) =
      .ok (4096, 2 ^ 64 - 4096) := by decide +kernel

/-! ### C44 -/

/-- In a release build `bounds` always returns an aligned range. -/
theorem bounds_release {t : Target} {k ptr len : Nat} (hk : k < t.width.bits) (hl : len < t.lim)
    (hc : t.checks = false) :
    ∃ p n, (Size.withSize (2 ^ k)).bounds t ptr len = .ok (p, n) ∧ 2 ^ k ∣ p ∧ 2 ^ k ∣ n ∧
      (0 < len → ptr % 2 ^ k + len + 2 ^ k ≤ t.lim → IsEnclosing (2 ^ k) ptr len p n) := by
  have hu := Nat.two_pow_pos k
  have hlp := t.lim_pos
  have hd : 2 ^ k ∣ ptr - ptr % 2 ^ k := Nat.dvd_sub_mod ptr
  have ha : ∃ s, addU t len (ptr % 2 ^ k) = .ok s ∧ s < t.lim := by
    by_cases h : len + ptr % 2 ^ k < t.lim
    · exact ⟨_, addU_ok h, h⟩
    · exact ⟨_, addU_wrap h hc, Nat.mod_lt _ hlp⟩
  obtain ⟨s, hs, hsl⟩ := ha
  have hr : ∃ n, (Size.withSize (2 ^ k)).round t s = .ok n ∧ 2 ^ k ∣ n := by
    by_cases h1 : s + 2 ^ k < t.lim
    · exact ⟨_, round_eq hk h1, Nat.dvd_mul_left _ _⟩
    · by_cases h2 : s + 2 ^ k = t.lim
      · exact ⟨_, round_edge hk h2 hc, Nat.dvd_mul_left _ _⟩
      · exact ⟨0, C04_round_zero t k s hk hsl hc (by omega), Nat.dvd_zero _⟩
  obtain ⟨n, hr, hn⟩ := hr
  have hb := bounds_of_round hs hr
  refine ⟨_, n, hb, hd, hn, fun h0 h1 => ?_⟩
  obtain ⟨p', n', hb', he⟩ := (C05_exact t k ptr len hk h0 hl).mpr (by
    rcases Nat.lt_or_eq_of_le h1 with h | h
    · exact Or.inl h
    · exact Or.inr ⟨hc, h⟩)
  rw [hb] at hb'
  injection hb' with hb'
  injection hb' with e1 e2
  rw [e1, e2]; exact he

theorem rangeOp_wrapped {t : Target} {k : Kernel} {m : MapMut} {off len : Nat} {op : Operation}
    {sys : Nat → Nat → Kernel × Result Unit} (hc : t.checks = false) (ho : off < t.lim)
    (hl : len < t.lim) (h : t.lim ≤ off + len) :
    rangeOp t k m off len op sys =
      if m.len < off + len - t.lim then .ok (k, .error (Error.input op .invalidRange))
      else (Size.page k).bounds t ((m.ptr + off) % t.lim) len >>= fun x => .ok (sys x.1 x.2) := by
  simp only [rangeOp, bind, Except.bind]
  rw [addU_wrap (by omega) hc, Nat.mod_eq_sub_mod h, Nat.mod_eq_of_lt (by omega)]
  rfl

/-- C44, every case the partial theorem leaves out in release builds: when `off + len` overflows, the
call is still rejected as it should be if the map is shorter than the overflowed sum; otherwise it is
accepted, and one system call is made on whole pages that have nothing to do with the map: the
smallest ones enclosing the `len` bytes from address `ptr + off` (itself taken around the end of the
address space), unless `len` is within two pages of the whole address space.  The last three lines are
the same for the calls of `Map`. -/
theorem C44_wrapped {t : Target} (hc : t.checks = false) {k : Kernel} (w : Wf t k) {m : MapMut}
    {off len : Nat} (ho : off < t.lim) (hl : len < t.lim) (h : t.lim ≤ off + len) :
    (m.len < off + len - t.lim →
      (∀ mode, Rejected k .flush (m.flushRange t k off len mode)) ∧
      (∀ adv, Rejected k .advise (m.adviseRange t k off len adv)) ∧
      Rejected k .lock (m.lockRange t k off len) ∧
      Rejected k .unlock (m.unlockRange t k off len)) ∧
    (off + len - t.lim ≤ m.len →
      ∃ p n, k.page ∣ p ∧ k.page ∣ n ∧
        (len + 2 * k.page ≤ t.lim → IsEnclosing k.page ((m.ptr + off) % t.lim) len p n) ∧
        (∀ mode, m.flushRange t k off len mode = .ok (Unix.flush k p n mode)) ∧
        (∀ adv, m.adviseRange t k off len adv = .ok (Unix.advise k p n adv)) ∧
        m.lockRange t k off len = .ok (Unix.lock k p n) ∧
        m.unlockRange t k off len = .ok (Unix.unlock k p n) ∧
        (∀ adv, (Map.mk m).adviseRange t k off len adv = .ok (Unix.advise k p n adv)) ∧
        (Map.mk m).lockRange t k off len = .ok (Unix.lock k p n) ∧
        (Map.mk m).unlockRange t k off len = .ok (Unix.unlock k p n)) := by
  constructor
  · intro hm
    refine ⟨fun mode => ?_, fun adv => ?_, ?_, ?_⟩
    · rw [flushRange_eq, rangeOp_wrapped hc ho hl h, if_pos hm]; exact rejected_input _ _
    · rw [adviseRange_eq, rangeOp_wrapped hc ho hl h, if_pos hm]; exact rejected_input _ _
    · rw [lockRange_eq, rangeOp_wrapped hc ho hl h, if_pos hm]; exact rejected_input _ _
    · rw [unlockRange_eq, rangeOp_wrapped hc ho hl h, if_pos hm]; exact rejected_input _ _
  · intro hm
    obtain ⟨s, hs, hs2⟩ := w.page
    obtain ⟨p, n, hb, h1, h2, h3⟩ := bounds_release (t := t) (k := s)
      (ptr := (m.ptr + off) % t.lim) (by omega) hl hc
    rw [← hs] at hb h1 h2 h3
    have hpp := w.page_pos
    have hmod := Nat.mod_lt ((m.ptr + off) % t.lim) hpp
    have e : ∀ (op : Operation) (sys : Nat → Nat → Kernel × Result Unit),
        rangeOp t k m off len op sys = .ok (sys p n) := fun op sys => by
      rw [rangeOp_wrapped hc ho hl h, if_neg (by omega), sizePage_eq, hb]; rfl
    have ha : ∀ adv, m.adviseRange t k off len adv = .ok (Unix.advise k p n adv) := fun adv => by
      rw [adviseRange_eq, e]
    have hlk : m.lockRange t k off len = .ok (Unix.lock k p n) := by rw [lockRange_eq, e]
    have hul : m.unlockRange t k off len = .ok (Unix.unlock k p n) := by rw [unlockRange_eq, e]
    exact ⟨p, n, h1, h2, fun h4 => h3 (by omega) (by omega),
      fun mode => by rw [flushRange_eq, e], ha, hlk, hul, ha, hlk, hul⟩

-- both halves have instances: 8192 bytes at 4096000, off = 2^32 - 100, len = 150 is accepted and
-- len = 10000 is rejected
example : (2 ^ 32 - 100 : Nat) < Target.lim ⟨.w32, false⟩ ∧
    Target.lim ⟨.w32, false⟩ ≤ 2 ^ 32 - 100 + 150 ∧
    2 ^ 32 - 100 + 150 - Target.lim ⟨.w32, false⟩ ≤ 8192 ∧
    8192 < 2 ^ 32 - 100 + 10000 - Target.lim ⟨.w32, false⟩ := by decide

end Vmap
