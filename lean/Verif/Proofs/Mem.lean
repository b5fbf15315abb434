import Verif.Spec.Kernel
/- Helper lemmas: loads and stores through the page table. -/
namespace Vmap
namespace Kernel

theorem Shows.load {k : Kernel} {a o j} (h : k.Shows a o j) : k.load a = .ok (k.data o j) := by
  obtain ⟨e, h1, h2, h3, h4, h5, h6, h7, h8⟩ := h
  simp [Kernel.load, h1, h2, h8, cell, h5, h6, h7]

theorem Shows.store {k : Kernel} {a o j} (h : k.Shows a o j) (b : Byte) :
    k.store a b = .ok (k.setByte o j b) := by
  obtain ⟨e, h1, h2, h3, h4, h5, h6, h7, h8⟩ := h
  simp [Kernel.store, h1, h3, h8, h4, h6, h7]

/-- `k'` differs from `k` only in the contents of objects. -/
structure SameButData (k k' : Kernel) : Prop where
  page : k'.page = k.page
  pt : k'.pt = k.pt
  size : k'.size = k.size
  disk : k'.disk = k.disk
  fds : k'.fds = k.fds
  names : k'.names = k.names
  fresh : k'.fresh = k.fresh
  nextFd : k'.nextFd = k.nextFd
  tick : k'.tick = k.tick
  oracle : k'.oracle = k.oracle
  log : k'.log = k.log

theorem SameButData.refl (k : Kernel) : SameButData k k := by constructor <;> rfl

theorem SameButData.trans {a b c : Kernel} (h1 : SameButData a b) (h2 : SameButData b c) :
    SameButData a c := by
  obtain ⟨p1, p2, p3, p4, p5, p6, p7, p8, p9, p10, p11⟩ := h1
  obtain ⟨q1, q2, q3, q4, q5, q6, q7, q8, q9, q10, q11⟩ := h2
  constructor <;> simp_all

theorem SameButData.setByte (k : Kernel) (o i b) : SameButData k (k.setByte o i b) := by
  constructor <;> rfl

theorem Shows.mono {k k' : Kernel} {a o j} (h : k.Shows a o j) (s : SameButData k k') :
    k'.Shows a o j := by
  obtain ⟨e, h1, h2, h3, h4, h5, h6, h7, h8⟩ := h
  refine ⟨e, by rw [s.pt, s.page]; exact h1, h2, h3, h4, h5, h6, by rw [s.page]; exact h7, ?_⟩
  simpa [backed, s.page, s.size] using h8

/-- Load of `n` bytes whose addresses all show bytes of `o`. -/
theorem loadN_shows {k : Kernel} {o : Obj} (f : Nat → Nat) :
    ∀ (n a : Nat), (∀ i, i < n → k.Shows (a + i) o (f i)) →
      k.loadN a n = .ok ((List.range n).map (fun i => k.data o (f i)))
  | 0, _, _ => rfl
  | n + 1, a, h => by
    have h0 := (h 0 (by omega)).load
    have ih := loadN_shows (k := k) (o := o) (fun i => f (i + 1)) n (a + 1) (by
      intro i hi
      have := h (i + 1) (by omega)
      rwa [show a + 1 + i = a + (i + 1) by omega])
    simp only [Nat.add_zero] at h0
    simp only [loadN, h0, ih, bind, Except.bind, pure, Except.pure]
    rw [List.range_succ_eq_map]
    simp [List.map_map, Function.comp_def]

/-- Store of bytes whose addresses all show bytes of `o`, at pairwise different indices. -/
theorem storeN_shows {o : Obj} :
    ∀ (bs : List Byte) (k : Kernel) (f : Nat → Nat) (a : Nat),
      (∀ i, i < bs.length → k.Shows (a + i) o (f i)) →
      (∀ i j, i < bs.length → j < bs.length → f i = f j → i = j) →
      ∃ k', k.storeN a bs = .ok k' ∧ SameButData k k' ∧
        (∀ o', o' ≠ o → k'.data o' = k.data o') ∧
        (∀ i (h : i < bs.length), k'.data o (f i) = bs[i]) ∧
        (∀ x, (∀ i, i < bs.length → f i ≠ x) → k'.data o x = k.data o x)
  | [], k, f, a, _, _ => ⟨k, rfl, SameButData.refl k, fun _ _ => rfl,
      fun i h => by simp at h, fun _ _ => rfl⟩
  | b :: bs, k, f, a, h, inj => by
    have h0 := (h 0 (by simp)).store b
    simp only [Nat.add_zero] at h0
    have s0 := SameButData.setByte k o (f 0) b
    obtain ⟨k', e, s, d1, d2, d3⟩ := storeN_shows (o := o) bs (k.setByte o (f 0) b)
      (fun i => f (i + 1)) (a + 1)
      (by
        intro i hi
        have := (h (i + 1) (by simpa using hi)).mono s0
        rwa [show a + 1 + i = a + (i + 1) by omega])
      (by
        intro i j hi hj e
        have := inj (i + 1) (j + 1) (by simpa using hi) (by simpa using hj) e
        omega)
    refine ⟨k', ?_, s0.trans s, ?_, ?_, ?_⟩
    · simp only [storeN, h0, bind, Except.bind, e]
    · intro o' ho'
      rw [d1 o' ho']
      funext x
      simp [Kernel.setByte, ho']
    · intro i hi
      cases i with
      | zero =>
        rw [d3 (f 0)]
        · simp [Kernel.setByte]
        · intro i hi e
          have := inj (i + 1) 0 (by simpa using hi) (by simp) e
          omega
      | succ i =>
        simp only [List.getElem_cons_succ]
        exact d2 i (by simpa using hi)
    · intro x hx
      rw [d3 x (fun i hi => hx (i + 1) (by simpa using hi))]
      have := hx 0 (by simp)
      simp [Kernel.setByte, Ne.symm this]

end Kernel
end Vmap
