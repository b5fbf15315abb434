import Verif.Proofs.ShmJob
/-
Property theorem C149: processes that create rings at the same time on targets without memfd.
-/
namespace Vmap
open Spec

/-- The two models of the name space agree: the same names exist, and objects are numbered alike. -/
def Spec.SameNames (s : Shm) (p : ShmSpace) : Prop :=
  (∀ n, s.exists_ n = (p.names n).isSome) ∧ s.nextFd = p.fresh

theorem shmAlone : ∀ (rounds : Nat) (s : Shm) (p : ShmSpace) (buf : List Byte), SameNames s p →
    (∀ s' r, memfdLoop rounds s buf = .ok (s', some r) → ∃ p',
      ShmJob.run s.clock s.fail s.tick p (.open buf) (rounds + 1) = .ok (p', .done r) ∧ SameNames s' p') ∧
    (∀ s', memfdLoop rounds s buf = .ok (s', none) → ∃ p' buf',
      ShmJob.run s.clock s.fail s.tick p (.open buf) rounds = .ok (p', .open buf') ∧ SameNames s' p') ∧
    (∀ f, memfdLoop rounds s buf = .error f →
      ShmJob.run s.clock s.fail s.tick p (.open buf) rounds = .error f) := by
  intro rounds
  induction rounds with
  | zero =>
    intro s p buf h
    refine ⟨fun s' r h => (nomatch h), ?_, fun f h => (nomatch h)⟩
    intro s' e
    injection e with e; injection e with e _
    subst e
    exact ⟨p, buf, rfl, h⟩
  | succ rounds ih =>
    intro s p buf h
    simp only [memfdLoop, ShmJob.run, ShmJob.step, bind, Except.bind]
    cases hp : shmPath (s.clock s.tick) buf with
    | error e =>
      refine ⟨fun s' r h => (nomatch h), fun s' h => (nomatch h), ?_⟩
      intro f e
      injection e with e
      exact congrArg Except.error e
    | ok x =>
      obtain ⟨buf', path⟩ := x
      dsimp only
      have again := ih { s with tick := s.tick + 1, log := .shmOpen path :: s.log } p buf' h
      have stop : ∀ (r : Result Nat), ∀ n tick, ShmJob.run s.clock s.fail tick p (.done r) n = .ok (p, .done r) :=
        fun r n tick => ShmJob.run_done _ _ _ _ _ _
      simp only [Shm.open, ShmSpace.open]
      cases hf : s.fail s.tick with
      | some e =>
        dsimp only
        by_cases he : (Error.lastOsError Operation.memoryFd e).rawOsError ≠ some EEXIST
        · rw [if_pos he, if_pos he]
          refine ⟨?_, fun s' h => (nomatch h), fun s' h => (nomatch h)⟩
          intro s' r e
          injection e with e; injection e with e1 e2; injection e2 with e2
          subst e1; subst e2
          exact ⟨p, stop _ _ _, h⟩
        · rw [if_neg he, if_neg he]
          exact again
      | none =>
        dsimp only
        rw [h.1 path]
        by_cases hn : (p.names path).isSome = true
        · rw [if_pos hn, if_pos hn]
          dsimp only
          have he : ¬ (Error.lastOsError Operation.memoryFd EEXIST).rawOsError ≠ some EEXIST := by
            simp [Error.rawOsError, Error.lastOsError, Error.system, SysError.rawOsError]
          rw [if_neg he, if_neg he]
          exact again
        · rw [if_neg hn, if_neg hn]
          dsimp only
          refine ⟨?_, fun s' h => (nomatch h), fun s' h => (nomatch h)⟩
          intro s' r e
          injection e with e; injection e with e1 e2; injection e2 with e2
          subst e1; subst e2
          refine ⟨ShmSpace.unlink ⟨fun n => if n = path then some p.fresh else p.names n, p.fresh + 1⟩ path,
            ?_, ?_, ?_⟩
          · rw [h.2]
            exact ShmJob.run_done _ _ _ _ _ _
          · intro n
            simp only [Shm.unlink, ShmSpace.unlink]
            by_cases hne : n = path
            · subst hne; simp
            · rw [bne_iff_ne.mpr hne, beq_eq_false_iff_ne.mpr hne, if_neg hne, if_neg hne, ← h.1 n]; rfl
          · simp only [Shm.unlink, ShmSpace.unlink, h.2]

/-- C149: if nothing comes in between, the calls of a job one after the other are `memfd_open` as C79
has it: they return the same, go on as long, panic at the same time, and leave the same names. -/
theorem C149_alone (rounds : Nat) (s : Shm) (p : ShmSpace) (h : SameNames s p) :
    (∀ s' r, memfdOpen rounds s = .ok (s', some r) → ∃ p',
      ShmJob.run s.clock s.fail s.tick p (.open pathBytes) (rounds + 1) = .ok (p', .done r) ∧
      SameNames s' p') ∧
    (∀ s', memfdOpen rounds s = .ok (s', none) → ∃ p' buf',
      ShmJob.run s.clock s.fail s.tick p (.open pathBytes) rounds = .ok (p', .open buf') ∧
      SameNames s' p') ∧
    (∀ f, memfdOpen rounds s = .error f →
      ShmJob.run s.clock s.fail s.tick p (.open pathBytes) rounds = .error f) :=
  shmAlone rounds s p pathBytes h

section
variable {strangers : Prop} {s0 s : ShmSpace} {ts : Nat → Option ShmJob}

/-- C149: whatever the others do, no call panics as long as the clock does not show a time before 1970. -/
theorem C149_no_panic (wf : ShmWf s0) (h : ShmTeam strangers s0 s ts) {i : Nat} {j : ShmJob}
    (hj : ts i = some j) {now : Int} (hn : 0 ≤ now) (fail : Option Errno) :
    ∃ s' j', j.step now fail s = .ok (s', j') := by
  cases j with
  | done ret => exact ⟨_, _, rfl⟩
  | unlink path fd => exact ⟨_, _, rfl⟩
  | «open» buf =>
    obtain ⟨b, n, h1, -⟩ := C29_name_partial hn ((h.inv wf).buf i buf hj)
    simp only [ShmJob.step, bind, Except.bind, h1, ShmSpace.open]
    cases fail with
    | some e =>
      dsimp only
      by_cases he : (Error.lastOsError Operation.memoryFd e).rawOsError ≠ some EEXIST
      · rw [if_pos he]; exact ⟨_, _, rfl⟩
      · rw [if_neg he]; exact ⟨_, _, rfl⟩
    | none =>
      dsimp only
      by_cases hs : (s.names n).isSome = true
      · rw [if_pos hs]
        dsimp only
        rw [if_neg (by simp [Error.rawOsError, Error.lastOsError, Error.system, SysError.rawOsError])]
        exact ⟨_, _, rfl⟩
      · rw [if_neg hs]; exact ⟨_, _, rfl⟩

/-- C149: what one system call of one of them does.  It makes at most the name that the clock gives, which
was free, for a new object; it removes at most the name the job itself has made, which still
stands for the job's object; it changes no other name.  It goes on to another round only if the name was
taken (or the system says so), and returns an error only if the system gave another one. -/
theorem C149_step (wf : ShmWf s0) (h : ShmTeam strangers s0 s ts) {i : Nat} {j : ShmJob}
    (hj : ts i = some j) {now : Int} {fail : Option Errno} {s' : ShmSpace} {j' : ShmJob}
    (st : j.step now fail s = .ok (s', j')) :
    (∀ n, s'.names n ≠ s.names n →
      (tried now n ∧ s.names n = none ∧ s'.names n = some s.fresh ∧ j'.made = some (n, s.fresh)) ∨
      (∃ o, j.made = some (n, o) ∧ s.names n = some o ∧ s'.names n = none ∧ j' = .done (.ok o))) ∧
    (∀ buf, j' = .open buf → fail = some EEXIST ∨ ∃ n, tried now n ∧ s.names n ≠ none) ∧
    (∀ err, j ≠ j' → j' = .done (.error err) →
      ∃ e, fail = some e ∧ e ≠ EEXIST ∧ err = Error.lastOsError .memoryFd e) := by
  have v := h.inv wf
  rcases ShmJob.step_cases st with ⟨ret, rfl, rfl, rfl⟩ | ⟨path, fd, rfl, rfl, rfl⟩ |
    ⟨buf, buf', path, rfl, hp, hc⟩
  · exact ⟨fun n hn => absurd rfl hn, fun _ h => (nomatch h), fun _ h _ => absurd rfl h⟩
  · refine ⟨fun n hn => ?_, fun _ h => (nomatch h), fun _ _ h => (nomatch h)⟩
    have hne : n = path := by
      by_cases hc : n = path
      · exact hc
      · exact absurd (if_neg hc) hn
    subst hne
    exact .inr ⟨fd, rfl, v.made i _ n fd hj rfl, if_pos rfl, rfl⟩
  · have ht := (shmPath_buf (v.buf i buf hj) hp).2
    rcases hc with ⟨rfl, rfl, hw⟩ | ⟨e, he, hf, rfl, rfl⟩ | ⟨-, free, rfl, rfl⟩
    · refine ⟨fun n hn => absurd rfl hn, fun _ _ => ?_, fun _ _ h => (nomatch h)⟩
      rcases hw with hw | ⟨-, hw⟩
      · exact .inl hw
      · refine .inr ⟨path, ht, ?_⟩
        intro hc
        rw [hc] at hw
        cases hw
    · refine ⟨fun n hn => absurd rfl hn, fun _ h => (nomatch h), fun err _ h => ?_⟩
      injection h with h; injection h with h
      exact ⟨e, hf, he, h.symm⟩
    · refine ⟨fun n hn => .inl ?_, fun _ h => (nomatch h), fun _ _ h => (nomatch h)⟩
      have hne : n = path := by
        by_cases hc : n = path
        · exact hc
        · exact absurd (if_neg hc) hn
      subst hne
      exact ⟨ht, free, if_pos rfl, rfl⟩

/-- C149: the objects that the calls have, and return, are new, and no two have the same.  An object that
has been returned has no name any more: nobody else can get hold of it. -/
theorem C149_own (wf : ShmWf s0) (h : ShmTeam strangers s0 s ts) :
    (∀ i j o, ts i = some j → j.has = some o → s0.fresh ≤ o ∧ ∀ n, s0.names n ≠ some o) ∧
    (∀ i i' j j' o, ts i = some j → ts i' = some j' → j.has = some o → j'.has = some o → i = i') ∧
    (∀ i o n, ts i = some (.done (.ok o)) → s.names n ≠ some o) := by
  have v := h.inv wf
  refine ⟨fun i j o hj ho => ⟨(v.new i j o hj ho).1, fun n hn => ?_⟩, v.own, ?_⟩
  · exact absurd (wf n o hn) (Nat.not_lt.mpr (v.new i j o hj ho).1)
  · intro i o n hj hn
    cases v.only i _ o n hj rfl hn

/-- C149: an object that a call returns is the one it made: no step changes the object a call has. -/
theorem C149_keeps {j j' : ShmJob} {now : Int} {fail : Option Errno} {s' : ShmSpace}
    (st : j.step now fail s = .ok (s', j')) {o : Obj} (ho : j.has = some o) : j'.has = some o := by
  rcases ShmJob.step_cases st with ⟨ret, rfl, rfl, rfl⟩ | ⟨path, fd, rfl, rfl, rfl⟩ |
    ⟨buf, buf', path, rfl, hp, hc⟩
  · exact ho
  · exact ho
  · cases ho

/-- C149: if no other program uses the name space, the names are at every time those that there were, and
those that calls have made and not yet removed, which were free. -/
theorem C149_clean (wf : ShmWf s0) (h : ShmTeam False s0 s ts) (n : List Byte) :
    (ShmBusy ts n → s0.names n = none) ∧ (¬ ShmBusy ts n → s.names n = s0.names n) := by
  suffices hh : (∀ n, ShmBusy ts n → s0.names n = none) ∧
      (∀ n, ¬ ShmBusy ts n → s.names n = s0.names n) from ⟨hh.1 n, hh.2 n⟩
  clear n
  induction h with
  | start => exact ⟨fun n h => (by obtain ⟨_, _, _, h, _⟩ := h; cases h), fun _ _ => rfl⟩
  | @begin s ts i before idle ih =>
    have same : ∀ n, ShmBusy (fun x => if x = i then some (ShmJob.open pathBytes) else ts x) n ↔ ShmBusy ts n := by
      intro n
      constructor
      · rintro ⟨x, j, o, hx, hm⟩
        dsimp only at hx
        by_cases hi : x = i
        · rw [if_pos hi] at hx; injection hx with hx; subst hx; cases hm
        · rw [if_neg hi] at hx; exact ⟨x, j, o, hx, hm⟩
      · rintro ⟨x, j, o, hx, hm⟩
        refine ⟨x, j, o, ?_, hm⟩
        have hi : x ≠ i := by
          intro hc; rw [hc, idle] at hx; cases hx
        exact (if_neg hi).trans hx
    exact ⟨fun n hn => ih.1 n ((same n).mp hn), fun n hn => ih.2 n (fun hc => hn ((same n).mpr hc))⟩
  | other _ allowed => exact allowed.elim
  | @step s ts i j s' j' now fail before busy st ih =>
    have v := before.inv wf
    obtain ⟨hs, -, -⟩ := C149_step wf before busy st
    -- a name someone else has made stays so
    have others : ∀ {n x l o}, x ≠ i → ts x = some l → l.made = some (n, o) → s'.names n = s.names n := by
      intro n x l o hx hl hm
      by_cases hc : s'.names n = s.names n
      · exact hc
      · exfalso
        have hn := v.made x l n o hl hm
        rcases hs n hc with ⟨-, hf, -⟩ | ⟨o', hm', hn', -⟩
        · rw [hf] at hn; cases hn
        · rw [hn'] at hn; injection hn with hn; subst hn
          exact hx (v.own x i l j o' hl busy (ShmJob.has_of_made hm) (ShmJob.has_of_made hm'))
    constructor
    · rintro n ⟨x, l, o, hx, hm⟩
      dsimp only at hx
      by_cases hi : x = i
      · rw [if_pos hi] at hx; injection hx with hx; subst hx
        rcases ShmJob.step_cases st with ⟨ret, rfl, rfl, rfl⟩ | ⟨path, fd, rfl, rfl, rfl⟩ |
          ⟨buf, buf', path, rfl, hp, hc⟩
        · cases hm
        · cases hm
        · rcases hc with ⟨rfl, rfl, hw⟩ | ⟨e, he, hf, rfl, rfl⟩ | ⟨-, free, rfl, rfl⟩
          · cases hm
          · cases hm
          · injection hm with hm; injection hm with hm _
            subst hm
            by_cases hb : ShmBusy ts path
            · exact ih.1 _ hb
            · rw [← ih.2 _ hb]; exact free
      · rw [if_neg hi] at hx
        exact ih.1 n ⟨x, l, o, hx, hm⟩
    · intro n hn
      by_cases hb : ShmBusy ts n
      · obtain ⟨x, l, o, hx, hm⟩ := hb
        by_cases hi : x = i
        · subst hi
          rw [busy] at hx; injection hx with hx; subst hx
          rcases ShmJob.step_cases st with ⟨ret, rfl, rfl, rfl⟩ | ⟨path, fd, rfl, rfl, rfl⟩ |
            ⟨buf, buf', path, rfl, hp, hc⟩
          · cases hm
          · injection hm with hm; injection hm with hm _
            subst hm
            rw [ih.1 path ⟨x, _, fd, busy, rfl⟩]
            exact if_pos rfl
          · cases hm
        · exact absurd ⟨x, l, o, (if_neg hi).trans hx, hm⟩ hn
      · rw [← ih.2 n hb]
        by_cases hc : s'.names n = s.names n
        · exact hc
        · exfalso
          rcases hs n hc with ⟨-, -, -, hm⟩ | ⟨o, hm, -⟩
          · exact hn ⟨i, j', _, if_pos rfl, hm⟩
          · exact hb ⟨i, j, o, busy, hm⟩

/-- C149: so once no call is under way, the names are what they were. -/
theorem C149_over (wf : ShmWf s0) (h : ShmTeam False s0 s ts)
    (over : ∀ i j, ts i = some j → ∃ ret, j = .done ret) : s.names = s0.names := by
  funext n
  refine (C149_clean wf h n).2 ?_
  rintro ⟨i, j, o, hj, hm⟩
  obtain ⟨ret, rfl⟩ := over i j hj
  cases hm

/-- C149: if no other program uses the name space and the system does not fail, a call has to try once more
only because the name it tried had been there before, or was just then being used by another call. -/
theorem C149_retry (wf : ShmWf s0) (h : ShmTeam False s0 s ts) {i : Nat} {j : ShmJob}
    (hj : ts i = some j) {now : Int} {s' : ShmSpace} {buf : List Byte}
    (st : j.step now none s = .ok (s', .open buf)) :
    ∃ n, tried now n ∧ (s0.names n ≠ none ∨ ∃ x l o, x ≠ i ∧ ts x = some l ∧ l.made = some (n, o)) := by
  obtain ⟨-, hr, -⟩ := C149_step wf h hj st
  rcases hr buf rfl with hr | ⟨n, ht, hn⟩
  · cases hr
  · refine ⟨n, ht, ?_⟩
    by_cases hb : ShmBusy ts n
    · obtain ⟨x, l, o, hx, hm⟩ := hb
      refine .inr ⟨x, l, o, ?_, hx, hm⟩
      intro hc
      subst hc
      rw [hj] at hx; injection hx with hx; subst hx
      rcases ShmJob.step_cases st with ⟨ret, rfl, rfl, e⟩ | ⟨path, fd, rfl, rfl, e⟩ |
        ⟨buf, buf', path, rfl, hp, hc⟩
      · cases e
      · cases e
      · cases hm
    · rw [(C149_clean wf h n).2 hb] at hn
      exact .inl hn

end

/-- Non-vacuity: two processes at the same nanosecond.  The first has made the name, the second finds it taken
and tries again a nanosecond later with success; the first then removes its name only. -/
def shmTeamDemo : Exec (ShmSpace × ShmJob × ShmJob) := do
  let s : ShmSpace := ⟨fun n => if n = [47, 120] then some 0 else none, 1⟩
  let (s, a) ← (ShmJob.open pathBytes).step 1000000042 none s
  let (s, b) ← (ShmJob.open pathBytes).step 1000000042 none s
  let (s, b) ← b.step 1000000043 none s
  let (s, a) ← a.step 0 none s
  return (s, a, b)

example : shmTeamDemo.map (fun x => (x.2.1.has, x.2.2.made, x.1.names [47, 120])) =
    .ok (some 1, some (shmPrefix ++ [48, 48, 48, 48, 48, 52, 51], 2), some 0) := by
  decide +kernel

example : ∃ s ts, ShmTeam False ⟨fun n => if n = [47, 120] then some 0 else none, 1⟩ s ts ∧
    ShmWf ⟨fun n => if n = [47, 120] then some 0 else none, 1⟩ ∧
    ShmBusy ts (shmPrefix ++ [48, 48, 48, 48, 48, 52, 50]) ∧ s.fresh = 2 := by
  refine ⟨_, _, .step (.begin (i := 3) .start rfl) (i := 3) (j := .open pathBytes) (j' :=
    .unlink (shmPrefix ++ [48, 48, 48, 48, 48, 52, 50]) 1) (now := 1000000042) (fail := none)
    (s' := ⟨fun n => if n = shmPrefix ++ [48, 48, 48, 48, 48, 52, 50] then some 1 else
      if n = [47, 120] then some 0 else none, 2⟩) rfl ?_, ?_,
    ⟨3, _, 1, rfl, rfl⟩, rfl⟩
  · have hp : shmPath 1000000042 pathBytes = .ok
      (shmPrefix ++ [48, 48, 48, 48, 48, 52, 50, 0], shmPrefix ++ [48, 48, 48, 48, 48, 52, 50]) := by
      decide +kernel
    simp only [ShmJob.step, bind, Except.bind, hp]
    rfl
  · intro n o h
    simp only at h
    by_cases hn : n = [47, 120]
    · rw [if_pos hn] at h; injection h with h; rw [← h]; exact Nat.one_pos
    · rw [if_neg hn] at h; cases h

end Vmap
