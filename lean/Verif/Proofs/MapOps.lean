import Verif.Proofs.Alloc
import Verif.Proofs.MapIfFrame
/- Helper lemmas: operations on existing maps. -/
namespace Vmap
open Kernel Spec

/-- First page of the byte range `[a, a+l)`. -/
def pg (k : Kernel) (a : Nat) : Nat := a / k.page
/-- Number of pages of the byte range `[a, a+l)`. -/
def npg (k : Kernel) (a l : Nat) : Nat := k.pages (l + a % k.page)

theorem pages_mul_page {k : Kernel} (hp : 0 < k.page) (n : Nat) : k.pages (n * k.page) = n := by
  have := pages_mul hp (Nat.dvd_mul_left k.page n)
  exact Nat.eq_of_mul_eq_mul_right hp this

/-- The range handed to the OS for `[ptr+off, ptr+off+l)`. -/
theorem range_bounds {t : Target} {k : Kernel} (w : Wf t k) {m : MapMut} {p n : Nat}
    (g : Pages t k.page m.ptr m.len p n) {off l : Nat} (h : off + l ≤ m.len) :
    ptrAdd t m.ptr off = m.ptr + off ∧
    (Size.page k).bounds t (m.ptr + off) l =
      .ok (pg k (m.ptr + off) * k.page, npg k (m.ptr + off) l * k.page) ∧
    p ≤ pg k (m.ptr + off) ∧ pg k (m.ptr + off) + npg k (m.ptr + off) l ≤ p + n ∧
    Encloses k.page p n (m.ptr + off) l (pg k (m.ptr + off) * k.page)
      (npg k (m.ptr + off) l * k.page) := by
  have hpp := w.page_pos
  obtain ⟨h1, h2, h3⟩ := g.sub hpp h
  have top := g.top
  have hd := Nat.div_add_mod (m.ptr + off) k.page
  rw [Nat.mul_comm] at hd
  have hm := Nat.mod_lt (m.ptr + off) hpp
  have hr := isRoundUp_div (len := l + (m.ptr + off) % k.page) hpp
  have hlt := Nat.div_mul_le_self (l + (m.ptr + off) % k.page + k.page - 1) k.page
  refine ⟨Nat.mod_eq_of_lt (by omega), bounds_eq w h3, h1, h2, ?_⟩
  refine ⟨Nat.dvd_mul_left _ _, Nat.dvd_mul_left _ _, ?_, ?_, ?_, ?_, Nat.mul_le_mul_right _ h1, ?_⟩
  · unfold pg; omega
  · unfold pg; omega
  · have := hr.2.1
    unfold pg npg; rw [pages_eq]; omega
  · unfold pg npg; rw [pages_eq]; omega
  · rw [← Nat.add_mul]; exact Nat.mul_le_mul_right _ h2

theorem whole_bounds {t : Target} {k : Kernel} (w : Wf t k) {m : MapMut} {p n : Nat}
    (g : Pages t k.page m.ptr m.len p n) :
    (Size.page k).bounds t m.ptr m.len = .ok (p * k.page, n * k.page) := by
  have hpp := w.page_pos
  obtain ⟨-, -, h3⟩ := g.sub hpp (off := 0) (l := m.len) (by omega)
  rw [Nat.add_zero] at h3
  obtain ⟨h1, h2⟩ := g.whole hpp
  rw [sizePage_eq, bounds_eq w h3, h1, h2]

/-- Dropping a map of positive length. -/
theorem drop_eq {t : Target} {k : Kernel} (w : ∃ s, k.page = 2 ^ s ∧ s + 2 ≤ t.width.bits)
    {m : MapMut} {p n : Nat} (g : Pages t k.page m.ptr m.len p n) (h0 : 0 < m.len) :
    m.drop t k = .ok { k with
      pt := fun q => if p ≤ q ∧ q < p + n then none else k.pt q
      tick := k.tick + 1
      log := ⟨.munmap (p * k.page) (n * k.page), .ok 0⟩ :: k.log } := by
  have w' : Wf t { k with pt := fun _ => none, fds := fun _ => none, names := fun _ => none } :=
    { page := w
      addr := fun _ _ h => by cases h
      objs := fun _ _ h => by cases h
      fds := fun _ _ h => by cases h
      names := fun _ _ h => by cases h
      excl := fun _ _ _ h => by cases h
      shared := fun _ _ h => by cases h }
  have hb : (Size.page k).bounds t m.ptr m.len = .ok (p * k.page, n * k.page) :=
    whole_bounds w' g
  have hpp : 0 < k.page := w'.page_pos
  have hn := g.n_pos
  have hne : n * k.page ≠ 0 := by
    intro h
    rcases Nat.mul_eq_zero.mp h with h | h <;> omega
  simp only [MapMut.drop]
  rw [if_pos h0]
  rw [sizePage_eq] at hb
  simp only [sizeAlloc_eq, hb, bind, Except.bind, pure, Except.pure]
  simp only [Unix.unmap, munmap_eq hne (Nat.mul_mod_left p k.page), wrapErr]
  rw [Nat.mul_div_cancel _ hpp, pages_mul_page hpp]

end Vmap
