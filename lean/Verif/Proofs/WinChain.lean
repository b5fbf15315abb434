import Verif.Proofs.WinCopy
import Verif.Proofs.RingAdapt
/-
Lemmas for C182: `chain` of two rings in whole programs on Windows.
-/
namespace Vmap
open Spec Kernel

section
variable {tab : SysTable} {t : Target} {ρ ω : Type} {rd : Kernel → ρ → Nat → Exec (ρ × List Byte)}
  {rd' : Kernel → ω → Nat → Exec (ω × List Byte)} {i j : Nat} {H : WinWorld → ρ → List Byte → Prop}
  {G : WinWorld → ω → List Byte → Prop} {k : Kernel} {obj : Nat → Obj}

/-- Reading everything from a chain of two sources. -/
theorem win_chain (hij : i ≠ j) (src : WinSource tab t rd i H) (src' : WinSource tab t rd' j G) (kw : Wf t k) {w : WinWorld}
    (sh : WinShows w.s k obj) {a : ρ} {b : ω} {qa qb : List Byte} (ha : H w a qa) (hb : G w b qb) {sz : Nat → Nat}
    (hsz : ∀ i, 0 < sz i) {fuel : Nat} (hf : qa.length + qb.length < fuel) :
    ∃ a' b' d w', readAll (chainRead (rd k) (rd' k)) fuel sz (a, b, false) [] = .ok (some ((a', b', d), qa ++ qb)) ∧
      WinOnlyCalls tab t (fun l => l = i ∨ l = j) w w' ∧ H w' a' [] ∧ G w' b' [] ∧ WinShows w'.s k obj := by
  have f : Feeds (rd k) (fun a q => ∃ w1, WinOnlyCalls tab t (· = i) w w1 ∧ H w1 a q ∧ WinShows w1.s k obj) := by
    rintro a q ⟨w1, c, h, sh1⟩ n
    obtain ⟨a', w2, e, c2, h2, sh2⟩ := src.read h kw sh1 n
    exact ⟨a', e, w2, c.trans c2, h2, sh2⟩
  -- whatever was done with the first ring meanwhile
  have g : Feeds (rd' k) (fun b q => ∀ w1, WinOnlyCalls tab t (· = i) w w1 → WinShows w1.s k obj →
      ∃ w2, WinOnlyCalls tab t (· = j) w1 w2 ∧ G w2 b q ∧ WinShows w2.s k obj) := by
    intro b q h n
    obtain ⟨w2, -, h2, sh2⟩ := h w .refl sh
    obtain ⟨b', -, e, -⟩ := src'.read h2 kw sh2 n
    refine ⟨b', e, fun w1 c sh1 => ?_⟩
    obtain ⟨w3, c3, h3, sh3⟩ := h w1 c sh1
    obtain ⟨b2, w4, e4, c4, h4, sh4⟩ := src'.read h3 kw sh3 n
    rw [e] at e4
    injection e4 with e4
    injection e4 with e4
    subst e4
    exact ⟨w4, c3.trans c4, h4, sh4⟩
  obtain ⟨a', b', d, e, ⟨w1, c1, h1, sh1⟩, h2⟩ := readAll_chain f g fuel sz a b qa qb [] hsz ⟨w, .refl, ha, sh⟩
    (fun w1 c sh1 => ⟨w1, .refl, src'.keep hij hb c, sh1⟩) hf
  obtain ⟨w2, c2, h2, sh2⟩ := h2 w1 c1 sh1
  exact ⟨a', b', d, w2, by simpa using e, (c1.mono fun _ => .inl).trans (c2.mono fun _ => .inr),
    src.keep (Ne.symm hij) h1 c2, h2, sh2⟩

end
end Vmap
