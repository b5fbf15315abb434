import Verif.Spec.Kernel
/-
A concrete kernel for the `example`s that accompany the property theorems: 4 KiB pages,
nothing mapped, one file "data" of 10000 bytes whose byte `i` is `i mod 251`.
-/
namespace Vmap

/-- The bits of `fail` choose which system calls fail (with errno 12); every other call
succeeds, and the `n`-th call would map at page `1000 * (n+1)`. -/
def demo (fail : Nat) : Kernel where
  page := 4096
  pt := fun _ => none
  data := fun o i => if o = 0 ∧ i < 10000 then UInt8.ofNat (i % 251) else 0
  size := fun o => if o = 0 then 10000 else 0
  disk := fun _ _ => 0
  fds := fun d => if d = 3 then some ⟨0, true, true⟩ else if d = 4 then some ⟨0, true, false⟩ else none
  names := fun n => if n = "data" then some 0 else none
  fresh := 1
  nextFd := 5
  tick := 0
  log := []
  oracle := fun n => ⟨!fail.testBit n, 12, 1000 * (n + 1), true⟩

theorem demo_wf {t : Target} (fail : Nat) : Kernel.Wf t (demo fail) where
  page := ⟨12, rfl, by rcases t with ⟨w, c⟩; cases w <;> simp [Width.bits]⟩
  addr := fun p e h => by cases h
  objs := fun p e h => by cases h
  fds := fun d f h => by
    simp only [demo] at h ⊢
    split at h
    · injection h with h; subst h; dsimp only; omega
    · split at h
      · injection h with h; subst h; dsimp only; omega
      · cases h
  names := fun n o h => by
    simp only [demo] at h ⊢
    split at h
    · injection h with h; omega
    · cases h
  excl := fun p e c h => by cases h
  shared := fun p e h => by cases h

end Vmap
