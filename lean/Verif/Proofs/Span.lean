import Verif.Model.Span
import Verif.Spec.Span
import Verif.Proofs.Store
import Verif.Proofs.Size
/- Helper lemmas: scalar representations and span accesses. -/
namespace Vmap
open Kernel

theorem leBytes_length : ∀ n v, (leBytes n v).length = n
  | 0, _ => rfl
  | n + 1, v => by simp [leBytes, leBytes_length n]

theorem toNat_ofNat_mod (v : Nat) : (UInt8.ofNat (v % 256)).toNat = v % 256 := by
  simp

theorem ofLe_le : ∀ n v, v < 256 ^ n → ofLeBytes (leBytes n v) = v
  | 0, v, h => by simp at h; simp [leBytes, ofLeBytes, h]
  | n + 1, v, h => by
    simp only [leBytes, ofLeBytes]
    rw [ofLe_le n (v / 256), toNat_ofNat_mod]
    · have := Nat.div_add_mod v 256; omega
    · rw [Nat.pow_succ] at h
      exact Nat.div_lt_of_lt_mul (by rw [Nat.mul_comm]; exact h)

theorem leBytes_get : ∀ n v i, i < n → (leBytes n v).getD i 0 = UInt8.ofNat (v / 256 ^ i % 256)
  | 0, _, i, h => by omega
  | n + 1, v, 0, _ => by simp [leBytes]
  | n + 1, v, i + 1, h => by
    simp only [leBytes, List.getD_cons_succ]
    rw [leBytes_get n (v / 256) i (by omega), Nat.div_div_eq_div_mul, Nat.pow_succ, Nat.mul_comm]

theorem encode_length (abi : Abi) (n v : Nat) : (abi.encode n v).length = n := by
  unfold Abi.encode; split <;> simp [leBytes_length]

theorem decode_encode (abi : Abi) (n v : Nat) (h : v < 256 ^ n) :
    abi.decode (abi.encode n v) = v := by
  unfold Abi.decode Abi.encode
  split <;> simp [ofLe_le n v h]

theorem encode_get (abi : Abi) (n v i : Nat) (h : i < n) :
    (abi.encode n v).getD i 0 = UInt8.ofNat (Spec.nativeByte abi.bigEndian n v i) := by
  unfold Abi.encode Spec.nativeByte
  split
  · rw [← leBytes_get n v (n - 1 - i) (by omega)]
    rw [List.getD_eq_getElem?_getD, List.getD_eq_getElem?_getD, List.getElem?_reverse]
    · rw [leBytes_length]
    · rw [leBytes_length]; exact h
  · exact leBytes_get n v i h

/-- A mapped range lies inside the address space, above address zero. -/
theorem Kernel.MapsAll.fits {t : Target} {k : Kernel} (w : Wf t k) {ptr len o off sh mw prot}
    (m : k.MapsAll ptr len o off sh mw prot) (hl : 0 < len) : 0 < ptr ∧ ptr + len ≤ t.lim := by
  have hp := w.page_pos
  constructor
  · obtain ⟨e, h1, -⟩ := m 0 hl
    have := (w.addr _ e h1).1
    rw [Nat.add_zero] at this
    rcases Nat.eq_zero_or_pos ptr with h | h
    · subst h; simp at this
    · exact h
  · obtain ⟨e, h1, -⟩ := m (len - 1) (by omega)
    have := (w.addr _ e h1).2
    have h2 := Nat.div_add_mod (ptr + (len - 1)) k.page
    have h3 := Nat.mod_lt (ptr + (len - 1)) hp
    rw [Nat.add_mul, Nat.one_mul, Nat.mul_comm] at this
    omega

theorem ptrAdd_eq {t : Target} {p n : Nat} (h : p + n < t.lim) : ptrAdd t p n = p + n :=
  Nat.mod_eq_of_lt h

theorem Scalar.size_pos (t : Target) (ty : Scalar) : 0 < ty.size t := by
  rcases t with ⟨w, c⟩
  cases w <;> cases ty <;> simp [Scalar.size, Width.bits]

theorem assertCapacity_ok {t : Target} {ty : Scalar} {off len : Nat}
    (h : off + ty.size t ≤ len) (hl : len < t.lim) : assertCapacity t ty off len = .ok () := by
  simp only [assertCapacity, bind, Except.bind]
  rw [addU_ok (by omega)]
  simp only
  rw [if_neg (by omega)]

theorem assertCapacity_panic {t : Target} {ty : Scalar} {off len : Nat}
    (h : len < off + ty.size t) (hl : off + ty.size t < t.lim ∨ t.checks = true) :
    assertCapacity t ty off len = .error .panic := by
  simp only [assertCapacity, bind, Except.bind]
  by_cases hs : off + ty.size t < t.lim
  · rw [addU_ok hs]
    simp only
    rw [if_pos h]
  · rw [addU_panic hs (by rcases hl with h | h; omega; exact h)]

end Vmap
