import Verif.Proofs.WinCopy
/-
Lemmas for C180: `read_exact`, `read_to_end` and `write_all` on rings in whole programs on Windows.
-/
namespace Vmap
open Spec Kernel

section
variable {tab : SysTable} {t : Target} {ρ : Type} {rd : Kernel → ρ → Nat → Exec (ρ × List Byte)} {i : Nat}
  {H : WinWorld → ρ → List Byte → Prop} {k : Kernel} {obj : Nat → Obj}

theorem win_readExact (src : WinSource tab t rd i H) (kw : Wf t k)
    {f : ρ → Nat → List Byte → Exec (ρ × List Byte × IoResult Unit)}
    (hf : ∀ r n acc, f r n acc = if n = 0 then .ok (r, acc, .ok ()) else match rd k r n with
      | .error e => .error e
      | .ok (r, bs) => if bs.length = 0 then .ok (r, acc, .error (.ofKind .unexpectedEof))
        else if n < bs.length then .error .panic else f r (n - bs.length) (acc ++ bs)) :
    ∀ (n : Nat) {w : WinWorld} {a : ρ} {q : List Byte} (acc : List Byte), H w a q → WinShows w.s k obj →
    ∃ a' w', f a n acc = .ok (a', acc ++ q.take n, if n ≤ q.length then .ok () else .error (.ofKind .unexpectedEof)) ∧
      WinOnlyCalls tab t (· = i) w w' ∧ H w' a' (q.drop n) ∧ WinShows w'.s k obj := by
  intro n
  induction n using Nat.strongRecOn with
  | ind n ih =>
    intro w a q acc ha sh
    rw [hf]
    by_cases hn : n = 0
    · subst hn
      exact ⟨a, w, by simp, .refl, by simpa using ha, sh⟩
    · obtain ⟨a1, w1, e1, c1, h1, sh1⟩ := src.read ha kw sh n
      rw [if_neg hn, e1]
      simp only
      have hlen : (q.take n).length = min n q.length := List.length_take
      by_cases hq : q.length = 0
      · have := List.eq_nil_of_length_eq_zero hq
        subst this
        refine ⟨a1, w1, ?_, c1, h1, sh1⟩
        rw [List.take_nil, if_pos List.length_nil, List.append_nil, if_neg (by simpa using hn)]
      · rw [if_neg (by rw [hlen]; omega), if_neg (by rw [hlen]; omega)]
        obtain ⟨a2, w2, e2, c2, h2, sh2⟩ := ih (n - (q.take n).length) (by rw [hlen]; omega) (acc ++ q.take n) h1 sh1
        have hd : (q.drop n).length = q.length - n := List.length_drop
        refine ⟨a2, w2, ?_, c1.trans c2, ?_, sh2⟩
        · rw [e2]
          have ht : (q.drop n).take (n - (q.take n).length) = [] := by
            by_cases hle : n ≤ q.length
            · rw [hlen, Nat.min_eq_left hle, Nat.sub_self, List.take_zero]
            · rw [List.drop_eq_nil_of_le (by omega), List.take_nil]
          rw [ht, List.append_nil]
          by_cases hle : n ≤ q.length
          · rw [if_pos hle, if_pos (by rw [hlen, hd]; omega)]
          · rw [if_neg hle, if_neg (by rw [hlen, hd]; omega)]
        · rw [List.drop_drop] at h2
          by_cases hle : n ≤ q.length
          · rw [hlen, Nat.min_eq_left hle, Nat.sub_self, Nat.add_zero] at h2; exact h2
          · rw [List.drop_eq_nil_of_le (by omega)] at h2
            rw [List.drop_eq_nil_of_le (by omega)]; exact h2

theorem win_readToEnd (src : WinSource tab t rd i H) (kw : Wf t k)
    {f : Nat → (Nat → Nat) → ρ → List Byte → Exec (Option (ρ × List Byte))}
    (hf : ∀ fuel sz r acc, f (fuel + 1) sz r acc = match rd k r (sz 0) with
      | .error e => .error e
      | .ok (r, bs) => if bs.length = 0 then .ok (some (r, acc)) else f fuel (fun i => sz (i + 1)) r (acc ++ bs)) :
    ∀ (fuel : Nat) (sz : Nat → Nat) {w : WinWorld} {a : ρ} {q : List Byte} (acc : List Byte), (∀ i, 0 < sz i) →
    q.length < fuel → H w a q → WinShows w.s k obj →
    ∃ a' w', f fuel sz a acc = .ok (some (a', acc ++ q)) ∧
      WinOnlyCalls tab t (· = i) w w' ∧ H w' a' [] ∧ WinShows w'.s k obj := by
  intro fuel
  induction fuel with
  | zero => intro sz w a q acc _ h; omega
  | succ fuel ih =>
    intro sz w a q acc hsz hl ha sh
    obtain ⟨a1, w1, e1, c1, h1, sh1⟩ := src.read ha kw sh (sz 0)
    rw [hf, e1]
    simp only
    have hlen : (q.take (sz 0)).length = min (sz 0) q.length := List.length_take
    have h0 := hsz 0
    by_cases hq : q.length = 0
    · have := List.eq_nil_of_length_eq_zero hq
      subst this
      refine ⟨a1, w1, ?_, c1, by simpa using h1, sh1⟩
      rw [List.take_nil, if_pos List.length_nil, List.append_nil]
    · rw [if_neg (by rw [hlen]; omega)]
      obtain ⟨a2, w2, e2, c2, h2, sh2⟩ := ih (fun i => sz (i + 1)) (acc ++ q.take (sz 0)) (fun i => hsz _)
        (by rw [List.length_drop]; omega) h1 sh1
      refine ⟨a2, w2, ?_, c1.trans c2, h2, sh2⟩
      rw [e2, List.append_assoc, List.take_append_drop]

end
end Vmap
