import Verif.Spec.Ports
/- Helper lemmas: no call but those of src/os/unix/mach.rs touches port rights, and the system stays
what it is. -/
namespace Vmap
open Kernel Spec

/-- The same system, and the same port rights. -/
def Plain (k k' : Kernel) : Prop := k'.mach = k.mach ∧ k'.ports = k.ports

namespace Plain
variable {t : Target} {k k' k'' : Kernel}

theorem refl : Plain k k := ⟨rfl, rfl⟩

theorem trans (a : Plain k k') (b : Plain k' k'') : Plain k k'' :=
  ⟨b.1.trans a.1, b.2.trans a.2⟩

theorem mmapAt {c : Choice} {p n : Nat} {src : Option Obj} {idx : Nat} {prot : Prot} {flags : MapFlags}
    {mw : Bool} : Plain k (k.mmapAt t c p n src idx prot flags mw).1 := by
  unfold Kernel.mmapAt
  repeat' split
  all_goals exact ⟨rfl, rfl⟩

theorem mmap {addr len : Nat} {prot : Prot} {flags : MapFlags} {fd : Option Nat} {off : Nat} :
    Plain k (k.mmap t addr len prot flags fd off).1 := by
  have key : Plain k (k.mmapCore t addr len prot flags fd off).1 := by
    unfold Kernel.mmapCore
    dsimp only
    repeat' split
    all_goals first
      | exact ⟨rfl, rfl⟩
      | exact trans (k' := k.tock) ⟨rfl, rfl⟩ mmapAt
  exact trans key ⟨rfl, rfl⟩

theorem munmap {addr len : Nat} : Plain k (k.munmap addr len).1 := by
  unfold Kernel.munmap Kernel.munmapCore record
  dsimp only
  repeat' split
  all_goals exact ⟨rfl, rfl⟩

theorem mprotect {addr len : Nat} {prot : Prot} : Plain k (k.mprotect addr len prot).1 := by
  unfold Kernel.mprotect Kernel.mprotectCore record
  dsimp only
  repeat' split
  all_goals exact ⟨rfl, rfl⟩

theorem msync {addr len : Nat} {b : Bool} : Plain k (k.msync addr len b).1 := by
  unfold Kernel.msync Kernel.msyncCore record
  dsimp only
  repeat' split
  all_goals exact ⟨rfl, rfl⟩

theorem madvise {addr len : Nat} {a : Madv} : Plain k (k.madvise addr len a).1 := by
  unfold Kernel.madvise Kernel.madviseCore record
  dsimp only
  repeat' split
  all_goals exact ⟨rfl, rfl⟩

theorem mlock {addr len : Nat} {b : Bool} : Plain k (k.mlock addr len b).1 := by
  unfold Kernel.mlock Kernel.mlockCore record
  dsimp only
  repeat' split
  all_goals exact ⟨rfl, rfl⟩

theorem memfd : Plain k k.memfdCreate.1 := by
  unfold memfdCreate memfdCreateCore record
  dsimp only
  repeat' split
  all_goals exact ⟨rfl, rfl⟩

theorem ftruncate {fd len : Nat} : Plain k (k.ftruncate t fd len).1 := by
  unfold Kernel.ftruncate ftruncateCore record
  dsimp only
  repeat' split
  all_goals exact ⟨rfl, rfl⟩

theorem ftruncate64 {fd len : Nat} : Plain k (k.ftruncate64 fd len).1 := by
  unfold Kernel.ftruncate64 ftruncate64Core record
  dsimp only
  repeat' split
  all_goals exact ⟨rfl, rfl⟩

theorem fstat {fd : Nat} : Plain k (k.fstatLen fd).1 := by
  unfold fstatLen fstatLenCore record
  dsimp only
  repeat' split
  all_goals exact ⟨rfl, rfl⟩

theorem openFile {path : String} {a b c d : Bool} : Plain k (k.openFile path a b c d).1 := by
  unfold Kernel.openFile openCore record
  dsimp only
  repeat' split
  all_goals exact ⟨rfl, rfl⟩

theorem vmAllocate {len : Nat} : Plain k (k.vmAllocate t len).1 := by
  unfold Kernel.vmAllocate vmAllocateCore record
  dsimp only
  repeat' split
  all_goals exact ⟨rfl, rfl⟩

theorem vmAllocateAt {addr len : Nat} : Plain k (k.vmAllocateAt t addr len).1 := by
  unfold Kernel.vmAllocateAt vmAllocateAtCore record
  dsimp only
  repeat' split
  all_goals exact ⟨rfl, rfl⟩

theorem vmDeallocate {addr len : Nat} : Plain k (k.vmDeallocate t addr len).1 := by
  unfold Kernel.vmDeallocate vmDeallocateCore record
  dsimp only
  repeat' split
  all_goals exact ⟨rfl, rfl⟩

theorem vmMap {addr len port : Nat} : Plain k (k.vmMap t addr len port).1 := by
  unfold Kernel.vmMap vmMapCore record
  dsimp only
  repeat' split
  all_goals exact ⟨rfl, rfl⟩

theorem store {a : Nat} {b : Byte} (h : k.store a b = .ok k') : Plain k k' := by
  unfold Kernel.store at h
  repeat' split at h
  all_goals first
    | (injection h with h; subst h; exact ⟨rfl, rfl⟩)
    | cases h

theorem storeN {bs : List Byte} {k : Kernel} {a : Nat} (h : k.storeN a bs = .ok k') : Plain k k' := by
  induction bs generalizing k a with
  | nil => injection h with h; subst h; exact refl
  | cons b bs ih =>
    simp only [Kernel.storeN, bind, Except.bind] at h
    split at h
    · cases h
    · rename_i k1 e
      exact trans (store e) (ih h)

theorem wrapErr {α : Type} {o : Operation} {r : Sys α} : (Vmap.wrapErr o r).1 = r.1 := by
  rcases r with ⟨k, _ | _⟩ <;> rfl

theorem ioErr {α : Type} {tab : SysTable} {r : Sys α} : (Vmap.ioErr tab r).1 = r.1 := by
  rcases r with ⟨k, _ | _⟩ <;> rfl

theorem mapRing_posix {len : Nat} {r : Result Nat} (h : Posix.mapRing t k len = .ok (k', r)) :
    Plain k k' := by
  have close : ∀ {k : Kernel} {fd : Nat}, Plain k (k.close fd) := ⟨rfl, rfl⟩
  have map : ∀ {k : Kernel} {op : Operation} {pg len : Nat} {fl : MapFlags} {fd : Option Nat},
      Plain k (Posix.map t k op pg len fl fd).1 := by
    intros; unfold Posix.map; rw [wrapErr]; exact mmap
  have tmp : Plain k (Posix.tmpOpen t k len).1 := by
    have h1 : Plain k (Posix.memfdOpen k).1 := by
      unfold Posix.memfdOpen; rw [wrapErr]; exact memfd
    unfold Posix.tmpOpen
    split
    · rename_i e; rw [e] at h1; exact h1
    · rename_i fd e
      rw [e] at h1
      split
      · rename_i e2; exact h1.trans ((congrArg (Plain _) (congrArg Prod.fst e2)).mp ftruncate |>.trans close)
      · rename_i e2; exact h1.trans ((congrArg (Plain _) (congrArg Prod.fst e2)).mp ftruncate)
  have wrapP : ∀ {k : Kernel} {pg len fd : Nat}, Plain k (Posix.wrapPtr t k pg len fd).1 := by
    intro k pg len fd
    unfold Posix.wrapPtr
    split
    · rename_i e; exact (congrArg (Plain _) (congrArg Prod.fst e)).mp map
    · rename_i e
      have h1 := (congrArg (Plain _) (congrArg Prod.fst e)).mp map
      split
      · rename_i e2; exact h1.trans ((congrArg (Plain _) (congrArg Prod.fst e2)).mp map)
      · rename_i e2; exact h1.trans ((congrArg (Plain _) (congrArg Prod.fst e2)).mp map)
  unfold Posix.mapRing at h
  split at h
  · rename_i e
    rw [e] at tmp
    injection h with h; injection h with h _; subst h
    exact tmp
  · rename_i k1 fd e
    rw [e] at tmp
    simp only [Posix.wrapFd, bind, Except.bind] at h
    split at h
    · cases h
    · rename_i x hx
      injection h with h; injection h with h _; subst h
      refine tmp.trans (trans ?_ close)
      split at hx
      · cases hx
      · split at hx
        · rename_i e2
          injection hx with hx; subst hx
          exact (congrArg (Plain _) (congrArg Prod.fst e2)).mp map
        · rename_i e2
          have h2 := (congrArg (Plain _) (congrArg Prod.fst e2)).mp map
          split at hx
          · rename_i e3
            have h3 := h2.trans ((congrArg (Plain _) (congrArg Prod.fst e3)).mp wrapP)
            simp only [Posix.unmapRing, bind, Except.bind, pure, Except.pure] at hx
            split at hx
            · cases hx
            · rename_i e4
              split at e4
              · cases e4
              · injection e4 with e4; subst e4
                injection hx with hx; subst hx
                refine h3.trans ?_
                show Plain _ (Unix.unmap _ _ _).1
                unfold Unix.unmap
                rw [wrapErr]
                exact munmap
          · rename_i e3
            injection hx with hx; subst hx
            exact h2.trans ((congrArg (Plain _) (congrArg Prod.fst e3)).mp wrapP)

theorem unmapRing {pg len : Nat} {r : Result Unit} (h : Os.unmapRing t k pg len = .ok (k', r)) :
    Plain k k' := by
  unfold Os.unmapRing at h
  split at h
  · simp only [Darwin.unmapRing, bind, Except.bind] at h
    split at h
    · cases h
    · split at h <;>
      · rename_i e
        injection h with h; injection h with h _; subst h
        exact (congrArg (Plain _) (congrArg Prod.fst e)).mp vmDeallocate
  · simp only [Posix.unmapRing, bind, Except.bind, pure, Except.pure] at h
    split at h
    · cases h
    · injection h with h
      have h := congrArg Prod.fst h
      simp only [Unix.unmap, wrapErr] at h
      subst h
      exact munmap

end Plain

/-- `map_ring` on any Unix: the system stays what it is; there is at most one port right more, and on
macOS exactly one more if there is a ring. -/
theorem Darwin.mapRing_ports {t : Target} {k k' : Kernel} {len : Nat} {r : Result Nat}
    (h : Darwin.mapRing t k len = .ok (k', r)) :
    k'.mach = k.mach ∧ (∀ p, r = .ok p → k'.ports.length = k.ports.length + 1) ∧
      k.ports.length ≤ k'.ports.length ∧ k'.ports.length ≤ k.ports.length + 1 := by
  have entry : ∀ {k k' : Kernel} {size addr : Nat} {x : Except Errno (Nat × Nat)},
      k.memoryEntry size addr = (k', x) → k'.mach = k.mach ∧
        (∀ y, x = .ok y → k'.ports.length = k.ports.length + 1) ∧
        (∀ e, x = .error e → k'.ports = k.ports) := by
    intro k k' size addr x h
    unfold Kernel.memoryEntry memoryEntryCore record at h
    dsimp only at h
    repeat' split at h
    all_goals
      injection h with h1 h2
      subst h1 h2
    · exact ⟨rfl, fun _ _ => by simp [tock], fun _ h => by cases h⟩
    · exact ⟨rfl, fun _ h => by (cases h), fun _ _ => rfl⟩
    · exact ⟨rfl, fun _ h => by (cases h), fun _ _ => rfl⟩
  have fst : ∀ {α : Type} {k k' : Kernel} {x : Kernel × α} {y : α}, Plain k x.1 → x = (k', y) → Plain k k' := by
    intro α k k' x y h e; rw [e] at h; exact h
  have small : ∀ {k k' : Kernel}, Plain k k' → k'.mach = k.mach ∧ k'.ports.length = k.ports.length :=
    fun h => ⟨h.1, by rw [h.2]⟩
  unfold Darwin.mapRing at h
  simp only [bind, Except.bind] at h
  split at h
  · cases h
  split at h
  · rename_i e1
    injection h with h; injection h with h hr; subst h hr
    obtain ⟨a, b⟩ := small (fst Plain.vmAllocate e1)
    exact ⟨a, fun _ h => by (cases h), by omega, by omega⟩
  · rename_i e1
    obtain ⟨a1, b1⟩ := small (fst Plain.vmAllocate e1)
    split at h
    · rename_i e2
      injection h with h; injection h with h hr; subst h hr
      obtain ⟨a, b⟩ := small ((fst Plain.vmAllocateAt e2).trans Plain.vmDeallocate)
      exact ⟨a.trans a1, fun _ h => by (cases h), by omega, by omega⟩
    · rename_i e2
      obtain ⟨a2, b2⟩ := small (fst Plain.vmAllocateAt e2)
      split at h
      · rename_i e3
        injection h with h; injection h with h hr; subst h hr
        obtain ⟨a, -, b⟩ := entry e3
        have b := congrArg List.length (b _ rfl)
        obtain ⟨a4, b4⟩ := small (Plain.vmDeallocate (t := t))
        exact ⟨a4.trans (a.trans (a2.trans a1)), fun _ h => by (cases h), by omega, by omega⟩
      · rename_i e3
        obtain ⟨a3, b3, -⟩ := entry e3
        have b3 := b3 _ rfl
        split at h
        · cases h
        split at h
        · rename_i e4
          split at h
          · cases h
          injection h with h; injection h with h hr; subst h hr
          obtain ⟨a, b⟩ := small ((fst Plain.vmMap e4).trans Plain.vmDeallocate)
          exact ⟨a.trans (a3.trans (a2.trans a1)), fun _ h => by (cases h), by omega, by omega⟩
        · rename_i e4
          injection h with h; injection h with h hr; subst h hr
          obtain ⟨a, b⟩ := small (fst Plain.vmMap e4)
          exact ⟨a.trans (a3.trans (a2.trans a1)), fun _ _ => by omega, by omega, by omega⟩


/-- `map_ring` on any Unix. -/
theorem Os.mapRing_ports {t : Target} {k k' : Kernel} {len : Nat} {r : Result Nat}
    (h : Os.mapRing t k len = .ok (k', r)) :
    k'.mach = k.mach ∧ (k.mach = false → k'.ports = k.ports) ∧
      (k.mach = true → (∀ p, r = .ok p → k'.ports.length = k.ports.length + 1) ∧
        k.ports.length ≤ k'.ports.length ∧ k'.ports.length ≤ k.ports.length + 1) := by
  unfold Os.mapRing at h
  split at h
  · rename_i hm
    obtain ⟨a, b⟩ := Darwin.mapRing_ports h
    exact ⟨a, fun h => absurd (hm.symm.trans h) (by decide), fun _ => b⟩
  · rename_i hm
    obtain ⟨a, b⟩ := Plain.mapRing_posix h
    exact ⟨a, fun _ => b, fun h => absurd h hm⟩

section
variable {t : Target} {k k' : Kernel}

theorem Ring.make_ports {hint : Nat} {r : Result Ring} (h : Ring.make t k hint = .ok (k', r)) :
    k'.mach = k.mach ∧ (k.mach = false → k'.ports = k.ports) ∧
      (k.mach = true → (∀ p, r = .ok p → k'.ports.length = k.ports.length + 1) ∧
        k.ports.length ≤ k'.ports.length ∧ k'.ports.length ≤ k.ports.length + 1) := by
  simp only [Ring.make, bind, Except.bind] at h
  split at h
  · cases h
  split at h
  · cases h
  rename_i x e
  obtain ⟨a, b, c⟩ := Os.mapRing_ports (k' := x.1) (r := x.2) e
  split at h
  · injection h with h; injection h with h hr; subst h hr
    exact ⟨a, b, fun m => ⟨fun _ h => by (cases h), (c m).2⟩⟩
  · rename_i p ep
    injection h with h; injection h with h hr; subst h hr
    exact ⟨a, b, fun m => ⟨fun _ _ => (c m).1 p ep, (c m).2⟩⟩

theorem InfiniteRing.make_ports {hint : Nat} {r : Result InfiniteRing}
    (h : InfiniteRing.make t k hint = .ok (k', r)) :
    k'.mach = k.mach ∧ (k.mach = false → k'.ports = k.ports) ∧
      (k.mach = true → (∀ p, r = .ok p → k'.ports.length = k.ports.length + 1) ∧
        k.ports.length ≤ k'.ports.length ∧ k'.ports.length ≤ k.ports.length + 1) := by
  simp only [InfiniteRing.make, bind, Except.bind] at h
  split at h
  · cases h
  split at h
  · cases h
  rename_i x e
  obtain ⟨a, b, c⟩ := Os.mapRing_ports (k' := x.1) (r := x.2) e
  split at h
  · injection h with h; injection h with h hr; subst h hr
    exact ⟨a, b, fun m => ⟨fun _ h => by (cases h), (c m).2⟩⟩
  · rename_i p ep
    injection h with h; injection h with h hr; subst h hr
    exact ⟨a, b, fun m => ⟨fun _ _ => (c m).1 p ep, (c m).2⟩⟩

theorem Plain.writeInto {ρ : Type} [SeqWrite ρ] {r r' : ρ} {bs : List Byte} {n : Nat}
    (h : writeInto t k r bs = .ok (k', r', n)) : Plain k k' := by
  simp only [Vmap.writeInto, bind, Except.bind] at h
  split at h
  · cases h
  split at h
  · cases h
  · split at h
    · cases h
    · rename_i k1 e
      split at h
      · cases h
      · injection h with h; injection h with h _; subst h
        exact storeN e

theorem Plain.poke {ρ : Type} [SeqWrite ρ] {r : ρ} {bs : List Byte}
    (h : poke t k r bs = .ok k') : Plain k k' := by
  simp only [Vmap.poke, bind, Except.bind] at h
  split at h
  · cases h
  · exact storeN h

theorem Plain.ring_exec {r r' : Ring} {op : RingOp} {x : Resp}
    (h : r.exec t k op = .ok ((k', r'), x)) : Plain k k' := by
  cases op <;> simp only [Ring.exec, bind, Except.bind, pure, Except.pure] at h
  case write bs =>
    split at h
    · cases h
    · rename_i y e
      injection h with h; injection h with h _; injection h with h _; subst h
      exact Plain.writeInto (r' := y.2.1) (n := y.2.2) e
  case poke bs =>
    split at h
    · cases h
    · rename_i y e
      injection h with h; injection h with h _; injection h with h _; subst h
      exact Plain.poke e
  all_goals
    first
      | (split at h
         · cases h
         · injection h with h; injection h with h _; injection h with h _; subst h; exact refl)
      | (injection h with h; injection h with h _; injection h with h _; subst h; exact refl)

theorem Plain.inf_exec {r r' : InfiniteRing} {op : RingOp} {x : Resp}
    (h : r.exec t k op = .ok ((k', r'), x)) : Plain k k' := by
  cases op <;> simp only [InfiniteRing.exec, bind, Except.bind, pure, Except.pure] at h
  case write bs =>
    split at h
    · cases h
    · rename_i y e
      injection h with h; injection h with h _; injection h with h _; subst h
      exact Plain.writeInto (r' := y.2.1) (n := y.2.2) e
  case poke bs =>
    split at h
    · cases h
    · rename_i y e
      injection h with h; injection h with h _; injection h with h _; subst h
      exact Plain.poke e
  all_goals
    first
      | (split at h
         · cases h
         · injection h with h; injection h with h _; injection h with h _; subst h; exact refl)
      | (injection h with h; injection h with h _; injection h with h _; subst h; exact refl)

theorem Plain.inf_all {r r' : InfiniteRing} {bs : List Byte}
    (h : r.writeAll t k bs = .ok (k', r')) : Plain k k' := by
  simp only [InfiniteRing.writeAll, bind, Except.bind] at h
  split at h
  · cases h
  split at h
  · cases h
  split at h
  · cases h
  split at h
  · cases h
  rename_i e
  split at h
  · cases h
  injection h with h; injection h with h _; subst h
  exact storeN e

theorem Plain.resizeFile {tab : SysTable} {fd sz : Nat} : Plain k (Options.resizeFile tab k fd sz).1 := by
  have key : Plain k (File.setLen tab k fd (asU64 sz)).1 := by
    unfold File.setLen
    split
    · exact refl
    · rw [ioErr]; exact ftruncate64
  unfold Options.resizeFile
  split <;> (rename_i e; rw [e] at key; exact key)

theorem Plain.mapIf {tab : SysTable} {o : Options} {fd : Nat} {r : Result (Option MapMut)}
    (h : o.mapIf tab t k fd = .ok (k', r)) : Plain k k' := by
  have of : ∀ {α : Type} {k k' : Kernel} {x : Kernel × α} {y : α}, Plain k x.1 → x = (k', y) → Plain k k' := by
    intro α k k' x y h e; rw [e] at h; exact h
  have tr : ∀ {k : Kernel} {n : Nat}, Plain k (Options.truncateStep tab k o fd n).1 := by
    intro k n; unfold Options.truncateStep; split
    · exact resizeFile
    · exact refl
  have rs : ∀ {k : Kernel} {n : Nat}, Plain k (Options.resizeStep tab k o fd n).1 := by
    intro k n; unfold Options.resizeStep
    split
    · exact resizeFile
    · split
      · exact resizeFile
      · exact refl
    · split
      · exact resizeFile
      · exact refl
    · exact refl
  have mf : ∀ {k : Kernel} {a b : Nat}, Plain k (Unix.mapFile t k fd a b o.protect).1 := by
    intro k a b; unfold Unix.mapFile; dsimp only; rw [wrapErr]; exact mmap
  have le : Plain k (File.len tab k fd).1 := by
    unfold File.len; rw [ioErr]; exact fstat
  have ret : ∀ {k k' : Kernel} {a b : Result (Option MapMut)},
      (pure (k, a) : Exec _) = .ok (k', b) → k = k' := by
    intro k k' a b h; injection h with h; injection h
  unfold Options.mapIf at h
  split at h
  · rename_i e; cases ret h; exact of le e
  rename_i e1
  split at h
  · rename_i e; cases ret h; exact (of le e1).trans (of tr e)
  rename_i e2
  split at h
  · rename_i e; cases ret h; exact ((of le e1).trans (of tr e2)).trans (of rs e)
  rename_i e3
  refine ((of le e1).trans (of tr e2)).trans ((of rs e3).trans ?_)
  simp only [Options.mapStep, bind, Except.bind] at h
  split at h
  · cases ret h; exact refl
  split at h
  · cases h
  split at h
  · cases ret h; exact refl
  split at h
  · cases h
  split at h
  · cases h
  split at h
  · cases h
  split at h <;> (rename_i e; cases ret h; exact of mf e)

theorem Plain.alloc {o : Options} {r : Result MapMut} (h : o.alloc t k = .ok (k', r)) : Plain k k' := by
  have mf : ∀ {k : Kernel} {a : Nat}, Plain k (Unix.mapAnon t k a o.protect).1 := by
    intro k a; unfold Unix.mapAnon; dsimp only; rw [wrapErr]; exact mmap
  simp only [Options.alloc, bind, Except.bind] at h
  split at h
  · cases h
  split at h
  · cases h
  split at h
  · cases h
  split at h <;>
  · rename_i e
    injection h with h; injection h with h _; subst h
    exact (congrArg (Plain _) (congrArg Prod.fst e)).mp mf

theorem Plain.openIf {tab : SysTable} {o : Options} {path : String} {r : Result (Option MapMut × Nat)}
    (h : o.openIf tab t k path = .ok (k', r)) : Plain k k' := by
  have op : Plain k (o.openOptions.open tab k path).1 := by
    unfold OpenOptions.open
    split
    · exact refl
    split
    · rw [ioErr]; exact openFile
    · rw [ioErr]; exact openFile
  unfold Options.openIf at h
  split at h
  · rename_i e
    injection h with h; injection h with h _; subst h
    rw [e] at op; exact op
  rename_i e
  rw [e] at op
  simp only [bind, Except.bind] at h
  split at h
  · cases h
  rename_i y ey
  refine op.trans ?_
  have := Plain.mapIf (k' := y.1) (r := y.2) ey
  split at h <;>
  · injection h with h; injection h with h _; subst h
    exact this.trans ⟨rfl, rfl⟩

end

/-- One step of a program: the system stays what it is, and only asking for a ring on macOS changes
the port rights. -/
theorem step_ports {tab : SysTable} {t : Target} {w w' : World} {op : Op}
    (st : w.step tab t op = .ok w') :
    w'.k.mach = w.k.mach ∧
      ((op.asksRing = false ∨ w.k.mach = false) → w'.k.ports = w.k.ports) ∧
      (op.asksRing = true → w.k.mach = true →
        (w'.next ≠ w.next → w'.k.ports.length = w.k.ports.length + 1) ∧
        w.k.ports.length ≤ w'.k.ports.length ∧ w'.k.ports.length ≤ w.k.ports.length + 1) := by
  have plain : ∀ {op : Op}, op.asksRing = false → Plain w.k w'.k →
      w'.k.mach = w.k.mach ∧
      ((op.asksRing = false ∨ w.k.mach = false) → w'.k.ports = w.k.ports) ∧
      (op.asksRing = true → w.k.mach = true →
        (w'.next ≠ w.next → w'.k.ports.length = w.k.ports.length + 1) ∧
        w.k.ports.length ≤ w'.k.ports.length ∧ w'.k.ports.length ≤ w.k.ports.length + 1) := by
    intro op ho h
    exact ⟨h.1, fun _ => h.2, fun h2 => by rw [ho] at h2; cases h2⟩
  have onMap : ∀ {α : Type} {i : Nat} {f : MapMut → Exec (Kernel × α)},
      (∀ m k' x, f m = .ok (k', x) → Plain w.k k') → w.onMap i f = .ok w' → Plain w.k w'.k := by
    intro α i f hf st
    unfold World.onMap at st
    split at st
    · rename_i m _
      simp only [bind, Except.bind] at st
      split at st
      · cases st
      · rename_i y e
        injection st with st; subst st
        exact hf m y.1 y.2 e
    · injection st with st; subst st; exact .refl
  have of : ∀ {k k' : Kernel} {x : Kernel × Result Unit} {y : Result Unit}, Plain k x.1 → x = (k', y) →
      Plain k k' := by
    intro k k' x y h e; rw [e] at h; exact h
  have range : ∀ {sum : Exec Nat} {bnd : Exec (Nat × Nat)} {lim : Nat} {er : Error}
      {sys : Nat × Nat → Kernel × Result Unit} {k' : Kernel} {x : Result Unit},
      (∀ p, Plain w.k (sys p).1) →
      (sum >>= fun s => if s > lim then pure (w.k, .error er) else
        bnd >>= fun p => pure (sys p)) = Except.ok (k', x) → Plain w.k k' := by
    intro sum bnd lim er sys k' x hs h
    simp only [bind, Except.bind] at h
    split at h
    · cases h
    split at h
    · injection h with h; injection h with h _; subst h; exact .refl
    split at h
    · cases h
    · injection h with h; exact of (hs _) h
  cases op with
  | mapIf o fd =>
    refine plain rfl ?_
    simp only [World.step, bind, Except.bind] at st
    split at st
    · cases st
    rename_i y e
    have := Plain.mapIf (k' := y.1) (r := y.2) e
    split at st <;> (injection st with st; subst st; exact this)
  | alloc o =>
    refine plain rfl ?_
    simp only [World.step, bind, Except.bind] at st
    split at st
    · cases st
    rename_i y e
    have := Plain.alloc (k' := y.1) (r := y.2) e
    split at st <;> (injection st with st; subst st; exact this)
  | openIf o path =>
    refine plain rfl ?_
    simp only [World.step, bind, Except.bind] at st
    split at st
    · cases st
    rename_i y e
    have := Plain.openIf (k' := y.1) (r := y.2) e
    split at st <;> (injection st with st; subst st; exact this)
  | close fd =>
    injection st with st; subst st
    exact plain rfl ⟨rfl, rfl⟩
  | pwrite fd i b =>
    refine plain rfl ?_
    simp only [World.step] at st
    split at st <;> (injection st with st; subst st; exact ⟨rfl, rfl⟩)
  | newRing hint =>
    simp only [World.step, bind, Except.bind] at st
    split at st
    · cases st
    rename_i y e
    obtain ⟨a, b, c⟩ := Ring.make_ports (k' := y.1) (r := y.2) e
    split at st
    · injection st with st; subst st
      exact ⟨a, fun h => b (h.resolve_left (by simp [Op.asksRing])),
        fun _ m => ⟨fun _ => (c m).1 _ rfl, (c m).2⟩⟩
    · injection st with st; subst st
      exact ⟨a, fun h => b (h.resolve_left (by simp [Op.asksRing])),
        fun _ m => ⟨fun h => absurd rfl h, (c m).2⟩⟩
  | newInf hint =>
    simp only [World.step, bind, Except.bind] at st
    split at st
    · cases st
    rename_i y e
    obtain ⟨a, b, c⟩ := InfiniteRing.make_ports (k' := y.1) (r := y.2) e
    split at st
    · injection st with st; subst st
      exact ⟨a, fun h => b (h.resolve_left (by simp [Op.asksRing])),
        fun _ m => ⟨fun _ => (c m).1 _ rfl, (c m).2⟩⟩
    · injection st with st; subst st
      exact ⟨a, fun h => b (h.resolve_left (by simp [Op.asksRing])),
        fun _ m => ⟨fun h => absurd rfl h, (c m).2⟩⟩
  | drop i =>
    refine plain rfl ?_
    simp only [World.step] at st
    split at st
    · simp only [bind, Except.bind] at st
      split at st
      · cases st
      rename_i y e
      injection st with st; subst st
      simp only [MapMut.drop, bind, Except.bind] at e
      split at e
      · split at e
        · cases e
        · injection e with e; subst e
          show Plain _ (Unix.unmap _ _ _).1
          unfold Unix.unmap
          rw [Plain.wrapErr]; exact .munmap
      · injection e with e; subst e; exact .refl
    · simp only [bind, Except.bind, Ring.drop] at st
      split at st
      · cases st
      rename_i y e
      injection st with st; subst st
      split at e
      · cases e
      · rename_i z ez
        injection e with e; subst e
        exact Plain.unmapRing (k' := z.1) (r := z.2) ez
    · simp only [bind, Except.bind, InfiniteRing.drop] at st
      split at st
      · cases st
      rename_i y e
      injection st with st; subst st
      split at e
      · cases e
      · rename_i z ez
        injection e with e; subst e
        exact Plain.unmapRing (k' := z.1) (r := z.2) ez
    · injection st with st; subst st; exact .refl
  | flush i off len mode =>
    refine plain rfl (onMap (f := fun m => m.flushRange t w.k off len mode) (fun m k' x h => ?_) st)
    refine range (sys := fun p => Unix.flush w.k p.1 p.2 mode) (fun p => ?_) h
    unfold Unix.flush; dsimp only; rw [Plain.wrapErr]; exact .msync
  | advise i off len adv =>
    refine plain rfl (onMap (f := fun m => m.adviseRange t w.k off len adv) (fun m k' x h => ?_) st)
    refine range (sys := fun p => Unix.advise w.k p.1 p.2 adv) (fun p => ?_) h
    unfold Unix.advise; rw [Plain.wrapErr]; exact .madvise
  | lock i off len =>
    refine plain rfl (onMap (f := fun m => m.lockRange t w.k off len) (fun m k' x h => ?_) st)
    refine range (sys := fun p => Unix.lock w.k p.1 p.2) (fun p => ?_) h
    unfold Unix.lock; rw [Plain.wrapErr]; exact .mlock
  | unlock i off len =>
    refine plain rfl (onMap (f := fun m => m.unlockRange t w.k off len) (fun m k' x h => ?_) st)
    refine range (sys := fun p => Unix.unlock w.k p.1 p.2) (fun p => ?_) h
    unfold Unix.unlock; rw [Plain.wrapErr]; exact .mlock
  | intoMapMut i =>
    refine plain rfl (onMap (fun m k' x h => ?_) st)
    have pr : ∀ a b, Plain w.k (Unix.protect w.k a b .readWrite).1 := by
      intro a b; unfold Unix.protect; rw [Plain.wrapErr]; exact .mprotect
    simp only [Map.intoMapMut, bind, Except.bind] at h
    split at h
    · cases h
    · rename_i y _
      have := pr y.1 y.2
      split at h <;>
      · rename_i e
        injection h with h; injection h with h _; subst h
        rw [e] at this; exact this
  | intoMap i =>
    refine plain rfl (onMap (fun m k' x h => ?_) st)
    have pr : ∀ a b, Plain w.k (Unix.protect w.k a b .readWrite).1 := by
      intro a b; unfold Unix.protect; rw [Plain.wrapErr]; exact .mprotect
    simp only [MapMut.intoMap, bind, Except.bind] at h
    split at h
    · cases h
    · rename_i y _
      have := pr y.1 y.2
      split at h <;>
      · rename_i e
        injection h with h; injection h with h _; subst h
        rw [e] at this; exact this
  | set i idx b =>
    refine plain rfl (onMap (fun m k' x h => ?_) st)
    simp only [MapMut.set, bind, Except.bind] at h
    split at h
    · cases h
    · rename_i y e
      injection h with h; injection h with h _; subst h
      split at e
      · exact .store e
      · cases e
  | ringOp i op =>
    refine plain rfl ?_
    simp only [World.step] at st
    split at st
    · simp only [bind, Except.bind] at st
      split at st
      · cases st
      split at st
      · cases st
      rename_i y e
      injection st with st; subst st
      exact Plain.ring_exec (k' := y.1.1) (r' := y.1.2) (x := y.2) e
    · injection st with st; subst st; exact .refl
  | infOp i op =>
    refine plain rfl ?_
    simp only [World.step] at st
    split at st
    · simp only [bind, Except.bind] at st
      split at st
      · cases st
      split at st
      · cases st
      rename_i y e
      injection st with st; subst st
      exact Plain.inf_exec (k' := y.1.1) (r' := y.1.2) (x := y.2) e
    · injection st with st; subst st; exact .refl
  | infAll i bs =>
    refine plain rfl ?_
    simp only [World.step] at st
    split at st
    · simp only [bind, Except.bind] at st
      split at st
      · cases st
      rename_i y e
      injection st with st; subst st
      exact Plain.inf_all (k' := y.1) (r' := y.2) e
    · injection st with st; subst st; exact .refl
  | writeBack sel =>
    injection st with st; subst st
    exact plain rfl ⟨rfl, rfl⟩

/-- A program stays on the system it was started on. -/
theorem Reach.mach {tab : SysTable} {t : Target} {k0 : Kernel} {w : World} (h : Reach tab t k0 w) :
    w.k.mach = k0.mach := by
  induction h with
  | start => rfl
  | step _ _ st ih => exact (step_ports st).1.trans ih

end Vmap
