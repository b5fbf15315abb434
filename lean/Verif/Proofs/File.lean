import Verif.Model.File
import Verif.Proofs.KernelWf
/- Helper lemmas: outcomes of the file system calls. -/
namespace Vmap
namespace Kernel

theorem fstat_cases (k : Kernel) (fd : Nat) :
    (∃ e, k.fstatLen fd =
      ({ k with tick := k.tick + 1, log := ⟨.fstat fd, .error e⟩ :: k.log }, .error e)) ∨
    (∃ f, k.fds fd = some f ∧ k.fstatLen fd =
      ({ k with tick := k.tick + 1, log := ⟨.fstat fd, .ok (k.size f.obj)⟩ :: k.log },
        .ok (k.size f.obj))) := by
  cases hf : k.fds fd with
  | none => exact .inl ⟨EBADF, by simp [fstatLen, fstatLenCore, record, hf, tock, Except.map]⟩
  | some f =>
    cases h : k.now.ok with
    | false =>
      exact .inl ⟨k.now.errno, by simp [fstatLen, fstatLenCore, record, hf, tock, Except.map, h]⟩
    | true =>
      exact .inr ⟨f, rfl, by simp [fstatLen, fstatLenCore, record, hf, tock, Except.map, h]⟩

theorem ftruncate64_cases (k : Kernel) (fd len : Nat) :
    (∃ e, k.ftruncate64 fd len =
      ({ k with tick := k.tick + 1, log := ⟨.ftruncate fd len, .error e⟩ :: k.log },
        .error e)) ∨
    (∃ f, k.fds fd = some f ∧ f.canWrite = true ∧ len < lim64 / 2 ∧
      k.ftruncate64 fd len = ({ k with
        size := fun o' => if o' = f.obj then len else k.size o'
        data := fun o' i =>
          if o' = f.obj ∧ (len ≤ i ∨ k.size f.obj ≤ i) then 0 else k.data o' i
        tick := k.tick + 1
        log := ⟨.ftruncate fd len, .ok 0⟩ :: k.log }, .ok ())) := by
  cases hf : k.fds fd with
  | none => exact .inl ⟨EBADF, by simp [ftruncate64, ftruncate64Core, record, hf, tock, Except.map]⟩
  | some f =>
    by_cases hc : (!f.canWrite || decide (lim64 / 2 ≤ len)) = true
    · refine .inl ⟨EINVAL, ?_⟩
      have : k.ftruncate64Core fd len = (k.tock, .error EINVAL) := by
        simp only [ftruncate64Core, tock, hf]; rw [if_pos hc]
      simp only [ftruncate64, record, this]; rfl
    · cases h : k.now.ok with
      | false =>
        refine .inl ⟨k.now.errno, ?_⟩
        have : k.ftruncate64Core fd len = (k.tock, .error k.now.errno) := by
          simp only [ftruncate64Core, tock, hf]; rw [if_neg hc]; simp [h]
        simp only [ftruncate64, record, this]; rfl
      | true =>
        refine .inr ⟨f, rfl, ?_, ?_, ?_⟩
        · cases hw : f.canWrite <;> simp_all
        · simp at hc; omega
        · have : k.ftruncate64Core fd len = (k.tock.resizeObj f.obj len, .ok ()) := by
            simp only [ftruncate64Core, tock, hf]; rw [if_neg hc]; simp [h]
          simp only [ftruncate64, record, this]; rfl

theorem Wf.same {t : Target} {k k' : Kernel} (h : Wf t k) (hp : k'.page = k.page)
    (hpt : k'.pt = k.pt) (hfds : k'.fds = k.fds) (hn : k'.names = k.names)
    (hf : k'.fresh = k.fresh) (hd : k'.nextFd = k.nextFd) : Wf t k' :=
  h.sub hp (by rw [hpt]; exact fun _ _ h => h) (by rw [hfds]; exact fun _ _ h => h)
    (by rw [hn]; exact fun _ _ h => h) (by omega) (by omega)

end Kernel
end Vmap
