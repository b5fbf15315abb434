import Verif.Spec.SysInfo
/-
The invariant behind C06.
-/
namespace Vmap
open Spec Threads

/-! ### The invariant -/

/-- The calls a thread still has to answer, and an upper bound of the steps it needs for that. -/
def Thread.rest (x : Thread) : List Query × Nat :=
  match x.pc with
  | .ready => (x.todo, 4 * x.todo.length)
  | .missed q => (q :: x.todo, 4 * x.todo.length + 3)
  | .storePage q _ => (q :: x.todo, 4 * x.todo.length + 2)
  | .storeAlloc q _ => (q :: x.todo, 4 * x.todo.length + 1)

/-- Nothing but zero and the right sizes was ever stored, and every thread holds the right sizes. -/
structure SysInv (info : Nat × Nat) (progs : Nat → List Query) (s : Threads) : Prop where
  page : ∀ v, v ∈ s.pageHist → v = 0 ∨ v = info.1
  alloc : ∀ v, v ∈ s.allocHist → v = 0 ∨ v = info.2
  held : ∀ i, match (s.threads i).pc with
    | .storePage _ v => v = info
    | .storeAlloc _ v => v = info
    | _ => True
  out : ∀ i, ∃ done, progs i = done ++ (s.threads i).rest.1 ∧
    (s.threads i).out = done.map (answer info.1 info.2)

theorem load_mem {hist : List Nat} {v c : Nat} (h : ∀ x, x ∈ hist → x = 0 ∨ x = v) :
    load hist c = 0 ∨ load hist c = v := by
  unfold load
  cases hc : hist[c]? with
  | none => exact .inl rfl
  | some x => exact h x (List.mem_of_getElem? hc)

theorem SysInv.set {info progs s} (w : SysInv info progs s) {i : Nat} {x : Thread} {s' : Threads}
    (hs : s'.threads = fun j => if j = i then x else s.threads j)
    (hp : ∀ v, v ∈ s'.pageHist → v = 0 ∨ v = info.1) (ha : ∀ v, v ∈ s'.allocHist → v = 0 ∨ v = info.2)
    (hx : match x.pc with
      | .storePage _ v => v = info
      | .storeAlloc _ v => v = info
      | _ => True)
    (ho : ∃ done, progs i = done ++ x.rest.1 ∧ x.out = done.map (answer info.1 info.2)) :
    SysInv info progs s' := by
  refine ⟨hp, ha, fun j => ?_, fun j => ?_⟩
  · rw [hs]
    by_cases h : j = i
    · simp only [h, if_true]; exact hx
    · simp only [h, if_false]; exact w.held j
  · rw [hs]
    by_cases h : j = i
    · simp only [h, if_true]; exact ho
    · simp only [h, if_false]; exact w.out j

theorem SysInv.step {info progs s} (w : SysInv info progs s) (i c : Nat) :
    SysInv info progs (step info s i c) ∧
      ((step info s i c).threads i).rest.2 ≤ (s.threads i).rest.2 - 1 ∧
      ∀ j, j ≠ i → (step info s i c).threads j = s.threads j := by
  obtain ⟨done, hd, ho⟩ := w.out i
  have hh := w.held i
  have hset : ∀ (s' : Threads) x, (s'.set i x).threads i = x := fun s' x => if_pos rfl
  have hne : ∀ (s' : Threads) x j, j ≠ i → (s'.set i x).threads j = s'.threads j := fun s' x j h => if_neg h
  simp only [Thread.rest] at hd
  unfold Threads.step
  simp only []
  cases hpc : (s.threads i).pc with
  | ready =>
    simp only [hpc] at hd hh
    cases htd : (s.threads i).todo with
    | nil =>
      simp only []
      refine ⟨w, ?_, fun _ _ => by trivial⟩
      simp only [Thread.rest, hpc, htd, List.length_nil, Nat.mul_zero, Nat.le_refl]
    | cons q todo =>
      rw [htd] at hd
      simp only []
      have hsz : s.cached q c = 0 ∨ s.cached q c = answer info.1 info.2 q := by
        cases q
        · exact load_mem w.page
        · exact load_mem w.alloc
      generalize s.cached q c = size at hsz
      by_cases h0 : size = 0
      · rw [if_pos h0]
        refine ⟨w.set rfl w.page w.alloc trivial ⟨done, hd, ho⟩, ?_, fun j h => hne _ _ _ h⟩
        rw [hset]
        simp only [Thread.rest, hpc, htd, List.length_cons]
        omega
      · rw [if_neg h0]
        have hsz : size = answer info.1 info.2 q := hsz.resolve_left h0
        refine ⟨w.set rfl w.page w.alloc trivial ⟨done ++ [q], ?_, ?_⟩, ?_, fun j h => hne _ _ _ h⟩
        · simp only [Thread.rest, hd, List.append_assoc, List.singleton_append]
        · simp only [ho, hsz, List.map_append, List.map_cons, List.map_nil]
        · rw [hset]
          simp only [Thread.rest, hpc, htd, List.length_cons]
          omega
  | missed q =>
    simp only [hpc] at hd hh
    refine ⟨w.set rfl w.page w.alloc rfl ⟨done, hd, ho⟩, ?_, fun j h => hne _ _ _ h⟩
    rw [hset]
    simp only [Thread.rest, hpc]
    omega
  | storePage q v =>
    simp only [hpc] at hd hh
    refine ⟨w.set rfl ?_ w.alloc hh ⟨done, hd, ho⟩, ?_, fun j h => hne _ _ _ h⟩
    · intro x hx
      rcases List.mem_append.mp hx with hx | hx
      · exact w.page x hx
      · rw [List.mem_singleton] at hx
        rw [hx, hh]
        exact .inr rfl
    · rw [hset]
      simp only [Thread.rest, hpc]
      omega
  | storeAlloc q v =>
    simp only [hpc] at hd hh
    refine ⟨w.set rfl w.page ?_ trivial ⟨done ++ [q], ?_, ?_⟩, ?_, fun j h => hne _ _ _ h⟩
    · intro x hx
      rcases List.mem_append.mp hx with hx | hx
      · exact w.alloc x hx
      · rw [List.mem_singleton] at hx
        rw [hx, hh]
        exact .inr rfl
    · simp only [Thread.rest, hd, List.append_assoc, List.singleton_append]
    · simp only [ho, List.map_append, List.map_cons, List.map_nil]
      cases q <;> rw [hh] <;> rfl
    · rw [hset]
      simp only [Thread.rest, hpc]
      omega

theorem SysInv.run {info progs} (sched : List (Nat × Nat)) : ∀ {s}, SysInv info progs s →
    SysInv info progs (run info s sched) ∧
      ∀ i, ((run info s sched).threads i).rest.2 ≤ (s.threads i).rest.2 - stepsOf i sched := by
  induction sched with
  | nil => exact fun w => ⟨w, fun i => Nat.le_refl _⟩
  | cons x rest ih =>
    obtain ⟨j, c⟩ := x
    intro s w
    obtain ⟨w1, h1, h2⟩ := w.step j c
    obtain ⟨w2, h3⟩ := ih w1
    refine ⟨w2, fun i => ?_⟩
    have h3 := h3 i
    by_cases h : i = j
    · subst h
      have : stepsOf i ((i, c) :: rest) = stepsOf i rest + 1 := List.countP_cons_of_pos (by simp)
      rw [Threads.run]
      omega
    · have : stepsOf i ((j, c) :: rest) = stepsOf i rest :=
        List.countP_cons_of_neg (by simp; exact fun h' => h h'.symm)
      rw [Threads.run]
      rw [h2 i h] at h3
      omega

end Vmap
