import Verif.Spec.Memfd
/- Helper lemmas: decimal digits and path buffers. -/
namespace Vmap
open Spec

theorem number_append (a b : List Byte) :
    number (a ++ b) = b.foldl (fun a b => 10 * a + (b.toNat - 48)) (number a) := by
  simp [number, List.foldl_append]

theorem digit_toNat {n : Nat} (h : n < 10) : (UInt8.ofNat (48 + n)).toNat = 48 + n := by
  rw [UInt8.toNat_ofNat']; omega

theorem digit_range {n : Nat} (h : n < 10) :
    (48 : Byte) ≤ UInt8.ofNat (48 + n) ∧ UInt8.ofNat (48 + n) ≤ 57 := by
  rw [UInt8.le_iff_toNat_le, UInt8.le_iff_toNat_le, digit_toNat h]
  show 48 ≤ 48 + n ∧ 48 + n ≤ 57
  omega

theorem decimal_digits (n : Nat) : (∀ b, b ∈ decimal n → 48 ≤ b ∧ b ≤ 57) ∧
    number (decimal n) = n ∧ decimal n ≠ [] := by
  induction n using Nat.strongRecOn with
  | ind n ih =>
    rw [decimal]
    by_cases h : n < 10
    · rw [if_pos h]
      refine ⟨?_, ?_, by simp⟩
      · intro b hb
        rw [List.mem_singleton.mp hb]
        exact digit_range h
      · simp only [number, List.foldl_cons, List.foldl_nil, digit_toNat h]; omega
    · rw [if_neg h]
      obtain ⟨h1, h2, -⟩ := ih (n / 10) (by omega)
      have hm : n % 10 < 10 := Nat.mod_lt _ (by omega)
      refine ⟨?_, ?_, by simp⟩
      · intro b hb
        rcases List.mem_append.mp hb with hb | hb
        · exact h1 b hb
        · rw [List.mem_singleton.mp hb]
          exact digit_range hm
      · rw [number_append, h2]
        simp only [List.foldl_cons, List.foldl_nil, digit_toNat hm]; omega

theorem decimal_length (k n : Nat) (hk : 0 < k) (h : n < 10 ^ k) : (decimal n).length ≤ k := by
  induction k generalizing n with
  | zero => omega
  | succ k ih =>
    rw [decimal]
    by_cases h1 : n < 10
    · rw [if_pos h1]; simp
    · rw [if_neg h1]
      have h0 : 0 < k := by
        rcases Nat.eq_zero_or_pos k with hk | hk
        · rw [hk] at h; omega
        · exact hk
      have := ih (n / 10) h0 (by rw [Nat.pow_succ] at h; omega)
      simp; omega

theorem number_zeros (m : Nat) (d : List Byte) : number (List.replicate m 48 ++ d) = number d := by
  rw [number_append]
  have : number (List.replicate m (48 : Byte)) = 0 := by
    induction m with
    | zero => rfl
    | succ m ih =>
      rw [List.replicate_succ', number_append, ih]; rfl
  rw [this]; rfl

/-- The formatted number has seven digits. -/
theorem format07_eq {n : Nat} (h : n < 10000000) : (format07 n).length = 7 ∧
    (∀ b, b ∈ format07 n → 48 ≤ b ∧ b ≤ 57) ∧ number (format07 n) = n := by
  obtain ⟨h1, h2, -⟩ := decimal_digits n
  have h3 := decimal_length 7 n (by omega) h
  refine ⟨by simp [format07]; omega, ?_, by rw [format07, number_zeros, h2]⟩
  intro b hb
  rcases List.mem_append.mp hb with hb | hb
  · rw [(List.mem_replicate.mp hb).2]; decide
  · exact h1 b hb

/-- A path buffer: "/vmap-", seven bytes, NUL. -/
def PathBuf (buf : List Byte) : Prop := ∃ d, buf = shmPrefix ++ d ++ [0] ∧ d.length = 7

theorem pathBytes_ok : PathBuf pathBytes := ⟨List.replicate 7 88, rfl, rfl⟩

theorem cstr_eq {s : List Byte} (h : (0 : Byte) ∉ s) : cstr (s ++ [0]) = .ok s := by
  simp [cstr, h]

/-- A name is determined by its number. -/
theorem ShmName.unique {n : Nat} {a b : List Byte} (ha : ShmName n a) (hb : ShmName n b) : a = b := by
  obtain ⟨d, rfl, h1, h2, h3⟩ := ha
  obtain ⟨d', rfl, h1', h2', h3'⟩ := hb
  congr 1
  have key : ∀ (m : Nat) (d d' : List Byte), d.length = m → d'.length = m →
      (∀ b, b ∈ d → 48 ≤ b ∧ b ≤ 57) → (∀ b, b ∈ d' → 48 ≤ b ∧ b ≤ 57) → number d = number d' →
      d = d' := by
    intro m
    induction m with
    | zero => intro d d' a b _ _ _; rw [List.length_eq_zero_iff.mp a, List.length_eq_zero_iff.mp b]
    | succ m ih =>
      intro d d' a b h h' hn
      have e1 := (List.dropLast_concat_getLast (l := d) (by intro h; rw [h] at a; cases a)).symm
      have e2 := (List.dropLast_concat_getLast (l := d') (by intro h; rw [h] at b; cases b)).symm
      generalize hx : d.getLast _ = x at e1
      generalize hy : d'.getLast _ = y at e2
      have hxm : x ∈ d := by rw [← hx]; exact List.getLast_mem _
      have hym : y ∈ d' := by rw [← hy]; exact List.getLast_mem _
      rw [e1, e2, number_append, number_append] at hn
      simp only [List.foldl_cons, List.foldl_nil] at hn
      have x1 := h x hxm
      have y1 := h' y hym
      rw [UInt8.le_iff_toNat_le, UInt8.le_iff_toNat_le] at x1 y1
      have c1 : (48 : Byte).toNat = 48 := rfl
      have c2 : (57 : Byte).toNat = 57 := rfl
      rw [c1, c2] at x1 y1
      have hxy : x = y := UInt8.toNat_inj.mp (by omega)
      have := ih d.dropLast d'.dropLast (by rw [List.length_dropLast, a]; rfl)
        (by rw [List.length_dropLast, b]; rfl) (fun b hb => h b (List.dropLast_subset _ hb))
        (fun b hb => h' b (List.dropLast_subset _ hb)) (by omega)
      rw [e1, e2, this, hxy]
  exact key 7 d d' h1 h1' h2 h2' (by rw [h3, h3'])

end Vmap
