import Verif.Spec.Demo
import Verif.Spec.Map
import Verif.Proofs.Size
/-
A concrete kernel with a map in place, for the `example`s: the demo file's first two pages
(8192 bytes) at page 1000.
-/
namespace Vmap
open Kernel

/-- The demo kernel after the first 8192 bytes of file 0 were mapped at page 1000. -/
def demoMap (sh mw : Bool) (prot : Prot) : Kernel :=
  { demo 0 with pt := fun q =>
      if 1000 ≤ q ∧ q < 1002 then some ⟨0, q - 1000, prot, sh, mw, none, false⟩ else none }

theorem demoMap_pt {sh mw prot q e} (h : (demoMap sh mw prot).pt q = some e) :
    1000 ≤ q ∧ q < 1002 ∧ e = ⟨0, q - 1000, prot, sh, mw, none, false⟩ := by
  simp only [demoMap] at h
  split at h
  · rename_i hq
    injection h with h
    exact ⟨hq.1, hq.2, h.symm⟩
  · cases h

theorem demoMap_wf {t : Target} (sh mw : Bool) (prot : Prot) : Wf t (demoMap sh mw prot) where
  page := (demo_wf 0).page
  addr := fun p e h => by
    obtain ⟨h1, h2, -⟩ := demoMap_pt h
    have hl := t.lim_cases
    have : (demoMap sh mw prot).page = 4096 := rfl
    rw [this]
    refine ⟨by omega, ?_⟩
    have : (p + 1) * 4096 ≤ 1002 * 4096 := Nat.mul_le_mul_right _ (by omega)
    omega
  objs := fun p e h => by
    obtain ⟨-, -, rfl⟩ := demoMap_pt h
    refine ⟨?_, fun c hc => by cases hc⟩
    show 0 < 1
    omega
  fds := (demo_wf 0 (t := t)).fds
  names := (demo_wf 0 (t := t)).names
  excl := fun p e c h hc => by
    obtain ⟨-, -, rfl⟩ := demoMap_pt h
    cases hc
  shared := fun p e h _ => by
    obtain ⟨-, -, rfl⟩ := demoMap_pt h
    rfl

/-- The map `[1000 * 4096 + 5, +8000)` shows 8000 bytes of the file from byte 5 on. -/
theorem demoMap_maps (sh mw : Bool) (prot : Prot) :
    (demoMap sh mw prot).MapsAll 4096005 8000 0 5 sh mw prot := by
  intro i hi
  have hp : (demoMap sh mw prot).page = 4096 := rfl
  refine ⟨⟨0, (4096005 + i) / 4096 - 1000, prot, sh, mw, none, false⟩, ?_, rfl, ?_, rfl, rfl, rfl, ?_⟩
  · rw [hp]
    show (if _ then _ else _) = _
    rw [if_pos (by omega)]
  · rw [hp]; dsimp only; omega
  · have hs : (demoMap sh mw prot).size 0 = 10000 := rfl
    simp only [backed, hp, hs, decide_eq_true_eq]
    omega

end Vmap
