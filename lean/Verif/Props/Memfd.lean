import Verif.Proofs.Memfd
/-
Property theorems C29 and C79: shared-memory objects on targets without memfd.
-/
namespace Vmap
open Spec

/-! ### C29 -/

/-- C29 in full: at every time, the name is as described and building it does not panic. -/
def C29_full : Prop :=
  ∀ now : Int, ∃ buf name, shmPath now pathBytes = .ok (buf, name) ∧ buf = name ++ [0] ∧
    tried now name

/-- C29, for clocks that do not show a time before 1970, and for the buffer of every round of the
loop.  (Missing: earlier times, for which it is false.) -/
theorem C29_name_partial {now : Int} (h : 0 ≤ now) {buf : List Byte} (hb : PathBuf buf) :
    ∃ buf' name, shmPath now buf = .ok (buf', name) ∧ buf' = name ++ [0] ∧ tried now name ∧
      (0 : Byte) ∉ name ∧ PathBuf buf' := by
  obtain ⟨d, rfl, hd⟩ := hb
  have hn : now.toNat % 1000000000 % 10000000 = clockDigits now := by
    rw [clockDigits]; omega
  obtain ⟨g1, g2, g3⟩ := format07_eq (n := clockDigits now) (by rw [clockDigits]; omega)
  have hw : writeSlice (shmPrefix ++ d ++ [0]) 6 (format07 (clockDigits now)) =
      .ok (shmPrefix ++ format07 (clockDigits now) ++ [0]) := by
    rw [writeSlice, if_pos (by
      rw [g1]
      simp [shmPrefix, hd])]
    have e1 : (shmPrefix ++ d ++ [0]).take 6 = shmPrefix := by
      rw [List.append_assoc]; exact List.take_left' rfl
    have e2 : (shmPrefix ++ d ++ [0]).drop (6 + 7) = [0] := List.drop_left' (by simp [hd, shmPrefix])
    rw [g1, e1, e2]
  have h0 : (0 : Byte) ∉ shmPrefix ++ format07 (clockDigits now) := by
    intro hm
    rcases List.mem_append.mp hm with hm | hm
    · revert hm; decide
    · exact absurd (g2 0 hm).1 (by decide)
  refine ⟨_, _, ?_, rfl, ⟨_, rfl, g1, g2, g3⟩, h0, ⟨_, rfl, g1⟩⟩
  simp only [shmPath, pseudorandom, if_neg (Int.not_lt.mpr h), hn, bind, Except.bind, hw,
    cstr_eq h0, pure, Except.pure]

/-- Before 1970, `memfd_open` panics. -/
theorem C29_panics_before_1970 (s : Shm) (rounds : Nat) (h : s.clock s.tick < 0) :
    memfdOpen (rounds + 1) s = .error .panic := by
  simp only [memfdOpen, memfdLoop, shmPath, pseudorandom, if_pos h, bind, Except.bind]

theorem C29_false : ¬ C29_full := by
  intro h
  obtain ⟨buf, name, hn, -⟩ := h (-1)
  cases hn

/-- Non-vacuity: the name at 1 000 000 042 ns after the epoch. -/
example : shmPath 1000000042 pathBytes = .ok
    (shmPrefix ++ [48, 48, 48, 48, 48, 52, 50, 0], shmPrefix ++ [48, 48, 48, 48, 48, 52, 50]) := by
  decide +kernel

/-! ### C79 -/

/-- What one run of `memfd_open` did, when it started in `s` and used at most `rounds` rounds. -/
structure Spec.MemfdRun (rounds : Nat) (s s' : Shm) (r : Option (Result Nat)) : Prop where
  /-- no name was created, and none of anybody else's was removed -/
  names : s'.exists_ = s.exists_
  /-- a descriptor comes from creating an object under a name that was free -/
  ok : ∀ fd, r = some (.ok fd) → fd = s.nextFd ∧ s'.nextFd = fd + 1 ∧ ∃ name rest,
    s'.log = .shmUnlink name :: .shmOpen name :: rest ∧ s.exists_ name = false
  /-- an error is that of the last `shm_open`, and is not EEXIST -/
  err : ∀ e, r = some (.error e) → ∃ code, e = Error.lastOsError .memoryFd code ∧ code ≠ EEXIST ∧
    s'.nextFd = s.nextFd ∧ ∃ i, i < rounds ∧ s'.tick = s.tick + i + 1 ∧
      s.fail (s.tick + i) = some code
  /-- it goes on only if every attempt failed with EEXIST -/
  going : r = none → s'.tick = s.tick + rounds ∧ s'.nextFd = s.nextFd ∧
    ∀ i, i < rounds → s.fail (s.tick + i) = some EEXIST ∨ s.fail (s.tick + i) = none ∧
      ∃ name, tried (s.clock (s.tick + i)) name ∧ s.exists_ name = true
  /-- every name ever tried is the one the clock gave -/
  calls : ∃ l, s'.log = l ++ s.log ∧ ∀ c, c ∈ l → ∃ i name, i < rounds ∧
    tried (s.clock (s.tick + i)) name ∧ (c = .shmOpen name ∨ c = .shmUnlink name)

/-- C79: `memfd_open`, with any clock not before 1970, any names taken and any failures, never
panics, and does what `MemfdRun` says. -/
theorem C79_loop (rounds : Nat) : ∀ (s : Shm) (buf : List Byte), PathBuf buf →
    (∀ i, i < rounds → 0 ≤ s.clock (s.tick + i)) →
    ∃ s' r, memfdLoop rounds s buf = .ok (s', r) ∧ MemfdRun rounds s s' r := by
  induction rounds with
  | zero =>
    intro s buf hb hc
    exact ⟨s, none, rfl, rfl, fun _ h => (by cases h), fun _ h => (by cases h),
      fun _ => ⟨rfl, rfl, fun i hi => absurd hi (Nat.not_lt_zero i)⟩, [], rfl, fun c hc => (by cases hc)⟩
  | succ rounds ih =>
    intro s buf hb hc
    obtain ⟨buf', name, h1, -, h3, -, h5⟩ := C29_name_partial (hc 0 (by omega)) hb
    rw [Nat.add_zero] at h1 h3
    -- what one more failed round means
    have again : ∀ e, s.open name = ({ s with tick := s.tick + 1, log := .shmOpen name :: s.log },
          .error e) →
        (s.fail s.tick = some e ∨ e = EEXIST ∧ s.fail s.tick = none ∧ s.exists_ name = true) →
        ∃ s' r, memfdLoop (rounds + 1) s buf = .ok (s', r) ∧ MemfdRun (rounds + 1) s s' r := by
      intro e he hwhy
      by_cases hee : e = EEXIST
      · subst hee
        obtain ⟨s', r, g1, g2⟩ := ih { s with tick := s.tick + 1, log := .shmOpen name :: s.log } buf' h5
          (fun i hi => by
            have := hc (i + 1) (by omega)
            rw [← Nat.add_assoc, Nat.add_right_comm] at this
            exact this)
        refine ⟨s', r, ?_, g2.names, g2.ok, ?_, ?_, ?_⟩
        · simp only [memfdLoop, h1, bind, Except.bind, he]
          rw [if_neg (by simp [Error.rawOsError, Error.lastOsError, Error.system, SysError.rawOsError])]
          exact g1
        · intro e hr
          obtain ⟨code, a1, a2, a3, i, a4, a5, a6⟩ := g2.err e hr
          refine ⟨code, a1, a2, a3, i + 1, by omega, ?_, ?_⟩
          · rw [a5]; show s.tick + 1 + i + 1 = _; omega
          · rw [show s.tick + (i + 1) = s.tick + 1 + i by omega]; exact a6
        · intro hr
          obtain ⟨a, b, c⟩ := g2.going hr
          refine ⟨by rw [a]; show s.tick + 1 + rounds = _; omega, b, ?_⟩
          intro i hi
          cases i with
          | zero =>
            rcases hwhy with hw | ⟨-, hw1, hw2⟩
            · exact .inl hw
            · exact .inr ⟨hw1, name, h3, hw2⟩
          | succ i =>
            have := c i (by omega)
            simp only [] at this
            rw [show s.tick + (i + 1) = s.tick + 1 + i by omega]
            exact this
        · obtain ⟨l, hl, hl2⟩ := g2.calls
          refine ⟨l ++ [.shmOpen name], by rw [hl, List.append_assoc]; rfl, ?_⟩
          intro c hcm
          rcases List.mem_append.mp hcm with hcm | hcm
          · obtain ⟨i, nm, hi, hn, hcc⟩ := hl2 c hcm
            refine ⟨i + 1, nm, by omega, ?_, hcc⟩
            rw [show s.tick + (i + 1) = s.tick + 1 + i by omega]
            exact hn
          · exact ⟨0, name, by omega, h3, .inl (List.mem_singleton.mp hcm)⟩
      · refine ⟨{ s with tick := s.tick + 1, log := .shmOpen name :: s.log },
          some (.error (Error.lastOsError .memoryFd e)), ?_, ?_⟩
        · simp only [memfdLoop, h1, bind, Except.bind, he]
          rw [if_pos (by
            simp [Error.rawOsError, Error.lastOsError, Error.system, SysError.rawOsError, hee])]
          rfl
        · refine ⟨rfl, fun fd h => (by cases h), ?_, fun h => (by cases h), [.shmOpen name], rfl, ?_⟩
          · intro e' h
            injection h with h
            injection h with h
            refine ⟨e, h.symm, hee, rfl, 0, by omega, rfl, ?_⟩
            rcases hwhy with hw | ⟨hw, -⟩
            · exact hw
            · exact absurd hw hee
          · intro c hcm
            exact ⟨0, name, by omega, h3, .inl (List.mem_singleton.mp hcm)⟩
    cases hf : s.fail s.tick with
    | some e =>
      exact again e (by simp only [Shm.open, hf]) (.inl hf)
    | none =>
      cases hx : s.exists_ name with
      | true =>
        exact again EEXIST (by simp only [Shm.open, hf, hx, if_true]) (.inr ⟨rfl, hf, hx⟩)
      | false =>
        refine ⟨({ s with
          tick := s.tick + 1
          log := .shmOpen name :: s.log
          exists_ := fun n => n == name || s.exists_ n
          nextFd := s.nextFd + 1 } : Shm).unlink name, some (.ok s.nextFd), ?_, ?_⟩
        · simp only [memfdLoop, h1, bind, Except.bind, Shm.open, hf, hx]
          rfl
        · refine ⟨?_, ?_, fun e h => (by cases h), fun h => (by cases h),
            [.shmUnlink name, .shmOpen name], rfl, ?_⟩
          · funext n
            show (n != name && (n == name || s.exists_ n)) = s.exists_ n
            by_cases hn : n = name
            · subst hn; simp [hx]
            · rw [bne_iff_ne.mpr hn, beq_eq_false_iff_ne.mpr hn]; rfl
          · intro fd h
            injection h with h
            injection h with h
            exact ⟨h.symm, by rw [← h]; rfl, name, s.log, rfl, hx⟩
          · intro c hcm
            simp only [List.mem_cons, List.not_mem_nil, or_false] at hcm
            exact ⟨0, name, by omega, h3, hcm.symm⟩

/-- C79: `memfd_open` never panics after 1970, leaves no name behind, returns a new object under a
name nobody used, and gives up only on errors other than EEXIST. -/
theorem C79_memfd_open (rounds : Nat) (s : Shm) (hc : ∀ i, i < rounds → 0 ≤ s.clock (s.tick + i)) :
    ∃ s' r, memfdOpen rounds s = .ok (s', r) ∧ MemfdRun rounds s s' r :=
  C79_loop rounds s pathBytes pathBytes_ok hc

/-- C79: it succeeds or fails as soon as one attempt meets a free name. -/
theorem C79_progress (rounds : Nat) (s : Shm) (hc : ∀ i, i < rounds → 0 ≤ s.clock (s.tick + i))
    {i : Nat} (hi : i < rounds) (hf : s.fail (s.tick + i) = none)
    (hn : ∀ name, tried (s.clock (s.tick + i)) name → s.exists_ name = false) :
    ∃ s' r, memfdOpen rounds s = .ok (s', some r) := by
  obtain ⟨s', r, h1, h2⟩ := C79_memfd_open rounds s hc
  cases r with
  | some r => exact ⟨s', r, h1⟩
  | none =>
    obtain ⟨-, -, h3⟩ := h2.going rfl
    rcases h3 i hi with h4 | ⟨-, name, h5, h6⟩
    · rw [hf] at h4; cases h4
    · rw [hn name h5] at h6; cases h6

/-- C79: if `shm_open` fails for no other reason than a name that exists (at the time), then
`memfd_open` succeeds as soon as one of the names it tries is free: with a new descriptor, of an
object that was created under a name nobody had. -/
theorem C79_succeeds (rounds : Nat) (s : Shm) (hc : ∀ i, i < rounds → 0 ≤ s.clock (s.tick + i))
    (hok : ∀ i, i < rounds → s.fail (s.tick + i) = none ∨ s.fail (s.tick + i) = some EEXIST)
    {i : Nat} (hi : i < rounds) (hf : s.fail (s.tick + i) = none)
    (hn : ∀ name, tried (s.clock (s.tick + i)) name → s.exists_ name = false) :
    ∃ s' name rest, memfdOpen rounds s = .ok (s', some (.ok s.nextFd)) ∧
      s'.exists_ = s.exists_ ∧ s.exists_ name = false ∧
      s'.log = .shmUnlink name :: .shmOpen name :: rest := by
  obtain ⟨s', r, h1, h2⟩ := C79_memfd_open rounds s hc
  obtain ⟨s1, r1, h3⟩ := C79_progress rounds s hc hi hf hn
  rw [h1] at h3
  simp only [Except.ok.injEq, Prod.mk.injEq] at h3
  obtain ⟨rfl, rfl⟩ := h3
  cases r1 with
  | ok fd =>
    obtain ⟨rfl, -, name, rest, a, b⟩ := h2.ok fd rfl
    exact ⟨s', name, rest, h1, h2.names, b, a⟩
  | error e =>
    obtain ⟨code, -, ne, -, j, hj, -, hcode⟩ := h2.err e rfl
    rcases hok j hj with h | h <;> rw [h] at hcode
    · cases hcode
    · injection hcode with hcode; exact absurd hcode.symm ne

/-- Non-vacuity: the first name is taken, the second one is free. -/
example : (memfdOpen 5 ⟨fun n => n == shmPrefix ++ [48, 48, 48, 48, 48, 48, 49],
    fun n => n + 1, fun _ => none, 3, 0, []⟩).map (fun x => (x.2, x.1.log)) =
    .ok (some (.ok 3), [.shmUnlink (shmPrefix ++ [48, 48, 48, 48, 48, 48, 50]),
      .shmOpen (shmPrefix ++ [48, 48, 48, 48, 48, 48, 50]),
      .shmOpen (shmPrefix ++ [48, 48, 48, 48, 48, 48, 49])]) := by
  decide +kernel

end Vmap
