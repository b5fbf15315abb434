import Verif.Proofs.Mem
import Verif.Proofs.Size
/- Helper lemmas: a mirrored mapping as a rotating window. -/
namespace Vmap
open Kernel

/-- The bytes of `o` in circular order, starting at position `a`. -/
def win (k : Kernel) (o : Obj) (len a : Nat) : List Byte :=
  (List.range len).map (fun i => k.data o ((a + i) % len))

@[simp] theorem win_length (k : Kernel) (o : Obj) (len a) : (win k o len a).length = len := by
  simp [win]

theorem win_getElem (k : Kernel) (o : Obj) (len a i) (h : i < (win k o len a).length) :
    (win k o len a)[i] = k.data o ((a + i) % len) := by
  simp [win]

theorem win_mod (k : Kernel) (o : Obj) (len a) : win k o len (a % len) = win k o len a := by
  simp [win, Nat.mod_add_mod]

/-- Moving the start of the window by `m`. -/
theorem win_shift (k : Kernel) (o : Obj) (len a m : Nat) (h : m ≤ len) :
    win k o len (a + m) = (win k o len a).drop m ++ (win k o len a).take m := by
  apply List.ext_getElem
  · simp; omega
  · intro i h1 h2
    rw [win_getElem, List.getElem_append]
    simp only [win_length] at h1
    split
    · rename_i hi
      simp only [List.length_drop, win_length] at hi
      rw [List.getElem_drop, win_getElem]
      congr 2; omega
    · rename_i hi
      simp only [List.length_drop, win_length] at hi ⊢
      rw [List.getElem_take, win_getElem]
      congr 1
      rw [show a + m + i = a + (i - (len - m)) + len by omega, Nat.add_mod_right]

theorem Kernel.Mirror.mono {t : Target} {k k' : Kernel} {p len o} (h : k.Mirror t p len o)
    (s : SameButData k k') : k'.Mirror t p len o :=
  ⟨h.len_pos, by rw [s.page]; exact h.ptr_dvd, by rw [s.page]; exact h.len_dvd, h.fits,
    fun i hi => (h.shows' i hi).mono s⟩

/-- Loading from a mirrored mapping at circular position `a`. -/
theorem Kernel.Mirror.load {t : Target} {k : Kernel} {p len o} (h : k.Mirror t p len o)
    (a m : Nat) (hm : m ≤ len) :
    k.loadN (p + a % len) m = .ok ((win k o len a).take m) := by
  have hl := Nat.mod_lt a h.len_pos
  rw [loadN_shows (k := k) (o := o) (fun i => (a + i) % len) m]
  · congr 1
    apply List.ext_getElem
    · simp; omega
    · intro i h1 h2
      simp [win]
  · intro i hi
    have := h.shows' (a % len + i) (by omega)
    rwa [Nat.mod_add_mod, ← Nat.add_assoc] at this

theorem mod_inj {len a i j : Nat} (hi : i < len) (hj : j < len)
    (e : (a + i) % len = (a + j) % len) : i = j := by
  have h1 : (a % len + i) % len = (a % len + j) % len := by
    rw [Nat.mod_add_mod, Nat.mod_add_mod, e]
  have hl := Nat.mod_lt a (show 0 < len by omega)
  generalize a % len = c at *
  by_cases h2 : c + i < len <;> by_cases h3 : c + j < len
  · rw [Nat.mod_eq_of_lt h2, Nat.mod_eq_of_lt h3] at h1; omega
  · rw [Nat.mod_eq_of_lt h2, show c + j = c + j - len + len by omega, Nat.add_mod_right,
      Nat.mod_eq_of_lt (by omega)] at h1; omega
  · rw [Nat.mod_eq_of_lt h3, show c + i = c + i - len + len by omega, Nat.add_mod_right,
      Nat.mod_eq_of_lt (by omega)] at h1; omega
  · rw [show c + i = c + i - len + len by omega, show c + j = c + j - len + len by omega,
      Nat.add_mod_right, Nat.add_mod_right, Nat.mod_eq_of_lt (by omega),
      Nat.mod_eq_of_lt (by omega)] at h1; omega

/-- Storing into a mirrored mapping at circular position `a`. -/
theorem Kernel.Mirror.store {t : Target} {k : Kernel} {p len o} (h : k.Mirror t p len o)
    (a : Nat) (bs : List Byte) (hm : bs.length ≤ len) :
    ∃ k', k.storeN (p + a % len) bs = .ok k' ∧ SameButData k k' ∧
      (∀ o', o' ≠ o → k'.data o' = k.data o') ∧
      win k' o len a = bs ++ (win k o len a).drop bs.length := by
  have hl := Nat.mod_lt a h.len_pos
  obtain ⟨k', e, s, d1, d2, d3⟩ := storeN_shows (o := o) bs k (fun i => (a + i) % len)
    (p + a % len)
    (by
      intro i hi
      have := h.shows' (a % len + i) (by omega)
      rwa [Nat.mod_add_mod, ← Nat.add_assoc] at this)
    (fun i j hi hj e => mod_inj (by omega) (by omega) e)
  refine ⟨k', e, s, d1, ?_⟩
  apply List.ext_getElem
  · simp; omega
  · intro i h1 h2
    rw [win_getElem, List.getElem_append]
    simp only [win_length] at h1
    split
    · rename_i hi
      exact d2 i hi
    · rename_i hi
      rw [List.getElem_drop, win_getElem, d3]
      · congr 2; omega
      · intro j hj e
        have := mod_inj (a := a) (by omega) h1 e
        omega

/-- Positions for which the conversion to `usize` does not disturb the remainder. -/
def PosOk (t : Target) (len x : Nat) : Prop := x < lim64 ∧ (len ∣ t.lim ∨ x < t.lim)

theorem PosOk.mod {t : Target} {len x} (h : PosOk t len x) : asUsize t x % len = x % len := by
  unfold asUsize
  cases h.2 with
  | inl d => exact Nat.mod_mod_of_dvd _ d
  | inr l => rw [Nat.mod_eq_of_lt l]

theorem PosOk.le {t : Target} {len x y} (h : PosOk t len x) (l : y ≤ x) : PosOk t len y :=
  ⟨by have := h.1; omega, h.2.imp id (fun q => by omega)⟩

theorem lim_le_lim64 (t : Target) : t.lim ≤ lim64 := by
  unfold Target.lim lim64
  cases t.width <;> simp [Width.bits]

theorem asUsize_ok {t : Target} {x : Nat} (h : x < t.lim) : asUsize t x = x :=
  Nat.mod_eq_of_lt h

theorem asU64_ok {t : Target} {x : Nat} (h : x < t.lim) : asU64 x = x :=
  Nat.mod_eq_of_lt (Nat.lt_of_lt_of_le h (lim_le_lim64 t))

theorem modU_ok {a b : Nat} (h : 0 < b) : modU a b = .ok (a % b) := by
  simp [modU, Nat.ne_of_gt h]

end Vmap
