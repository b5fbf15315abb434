import Verif.Spec.ShmJob
import Verif.Props.Memfd
/- Helper lemmas for C149. -/
namespace Vmap
open Spec

theorem ShmJob.run_done (clock fail tick s ret n) :
    ShmJob.run clock fail tick s (.done ret) n = .ok (s, .done ret) := by
  induction n generalizing tick with
  | zero => rfl
  | succ n ih => exact ih (tick + 1)

/-- The cases of a step. -/
theorem ShmJob.step_cases {now fail s j s' j'} (h : ShmJob.step now fail s j = .ok (s', j')) :
    (∃ ret, j = .done ret ∧ s' = s ∧ j' = .done ret) ∨
    (∃ path fd, j = .unlink path fd ∧ s' = s.unlink path ∧ j' = .done (.ok fd)) ∨
    (∃ buf buf' path, j = .open buf ∧ shmPath now buf = .ok (buf', path) ∧
      ((s' = s ∧ j' = .open buf' ∧ (fail = some EEXIST ∨ fail = none ∧ (s.names path).isSome)) ∨
       (∃ e, e ≠ EEXIST ∧ fail = some e ∧ s' = s ∧ j' = .done (.error (Error.lastOsError .memoryFd e))) ∨
       (fail = none ∧ s.names path = none ∧ j' = .unlink path s.fresh ∧
        s' = ⟨fun n => if n = path then some s.fresh else s.names n, s.fresh + 1⟩))) := by
  cases j with
  | done ret =>
    injection h with h; injection h with h1 h2
    exact .inl ⟨ret, rfl, h1.symm, h2.symm⟩
  | unlink path fd =>
    injection h with h; injection h with h1 h2
    exact .inr (.inl ⟨path, fd, rfl, h1.symm, h2.symm⟩)
  | «open» buf =>
    simp only [ShmJob.step, bind, Except.bind] at h
    cases hp : shmPath now buf with
    | error e => rw [hp] at h; cases h
    | ok x =>
      obtain ⟨buf', path⟩ := x
      rw [hp] at h
      refine .inr (.inr ⟨buf, buf', path, rfl, hp, ?_⟩)
      simp only [ShmSpace.open] at h
      cases fail with
      | some e =>
        dsimp only at h
        by_cases he : e = EEXIST
        · subst he
          rw [if_neg (by simp [Error.rawOsError, Error.lastOsError, Error.system, SysError.rawOsError])] at h
          injection h with h; injection h with h1 h2
          exact .inl ⟨h1.symm, h2.symm, .inl rfl⟩
        · rw [if_pos (by
            simp [Error.rawOsError, Error.lastOsError, Error.system, SysError.rawOsError, he])] at h
          injection h with h; injection h with h1 h2
          exact .inr (.inl ⟨e, he, rfl, h1.symm, h2.symm⟩)
      | none =>
        dsimp only at h
        by_cases hn : (s.names path).isSome = true
        · rw [if_pos hn] at h
          dsimp only at h
          rw [if_neg (by simp [Error.rawOsError, Error.lastOsError, Error.system, SysError.rawOsError])] at h
          injection h with h; injection h with h1 h2
          exact .inl ⟨h1.symm, h2.symm, .inr ⟨rfl, hn⟩⟩
        · rw [if_neg hn] at h
          dsimp only at h
          injection h with h; injection h with h1 h2
          exact .inr (.inr ⟨rfl, by simpa using hn, h2.symm, h1.symm⟩)

theorem shmPath_buf {now buf buf' path} (hb : PathBuf buf) (h : shmPath now buf = .ok (buf', path)) :
    PathBuf buf' ∧ tried now path := by
  by_cases hn : 0 ≤ now
  · obtain ⟨b, n, h1, -, h2, -, h3⟩ := C29_name_partial hn hb
    rw [h1] at h
    injection h with h
    injection h with h4 h5
    subst h4; subst h5
    exact ⟨h3, h2⟩
  · simp only [shmPath, pseudorandom, if_pos (Int.not_le.mp hn), bind, Except.bind] at h
    cases h

/-- What is true of every state. -/
structure ShmInv (s0 s : ShmSpace) (ts : Nat → Option ShmJob) : Prop where
  wf : ShmWf s
  fresh : s0.fresh ≤ s.fresh
  buf : ∀ i buf, ts i = some (.open buf) → PathBuf buf
  /-- a name that a job has made stands for the job's object -/
  made : ∀ i j n o, ts i = some j → j.made = some (n, o) → s.names n = some o
  /-- the jobs' objects are new -/
  new : ∀ i j o, ts i = some j → j.has = some o → s0.fresh ≤ o ∧ o < s.fresh
  /-- every job has its own -/
  own : ∀ i i' j j' o, ts i = some j → ts i' = some j' → j.has = some o → j'.has = some o → i = i'
  /-- a job's object has no name but the one the job has made -/
  only : ∀ i j o n, ts i = some j → j.has = some o → s.names n = some o → j.made = some (n, o)

theorem ShmJob.has_of_made {j : ShmJob} {n o} (h : j.made = some (n, o)) : j.has = some o := by
  cases j with
  | unlink path fd => injection h with h; injection h with h1 h2; exact congrArg some h2
  | _ => cases h

theorem _root_.Vmap.Spec.ShmTeam.inv {strangers s0 s ts} (wf : ShmWf s0) (h : ShmTeam strangers s0 s ts) : ShmInv s0 s ts := by
  induction h with
  | start =>
    exact ⟨wf, Nat.le_refl _, fun _ _ h => (nomatch h), fun _ _ _ _ h => (nomatch h),
      fun _ _ _ h => (nomatch h), fun _ _ _ _ _ h => (nomatch h), fun _ _ _ _ h => (nomatch h)⟩
  | @begin s ts i before idle ih =>
    have get : ∀ {x j}, (if x = i then some (ShmJob.open pathBytes) else ts x) = some j →
        (x = i ∧ j = .open pathBytes) ∨ ts x = some j := by
      intro x j h
      by_cases hx : x = i
      · rw [if_pos hx] at h; injection h with h; exact .inl ⟨hx, h.symm⟩
      · rw [if_neg hx] at h; exact .inr h
    refine ⟨ih.wf, ih.fresh, ?_, ?_, ?_, ?_, ?_⟩
    · intro x buf h
      rcases get h with ⟨-, h⟩ | h
      · injection h with h; rw [h]; exact pathBytes_ok
      · exact ih.buf x buf h
    · intro x j n o h hm
      rcases get h with ⟨-, rfl⟩ | h
      · cases hm
      · exact ih.made x j n o h hm
    · intro x j o h hm
      rcases get h with ⟨-, rfl⟩ | h
      · cases hm
      · exact ih.new x j o h hm
    · intro x x' j j' o h h' hm hm'
      rcases get h with ⟨-, rfl⟩ | h
      · cases hm
      · rcases get h' with ⟨-, rfl⟩ | h'
        · cases hm'
        · exact ih.own x x' j j' o h h' hm hm'
    · intro x j o n h hm hn
      rcases get h with ⟨-, rfl⟩ | h
      · cases hm
      · exact ih.only x j o n h hm hn
  | @other s ts s' before allowed what ih =>
    refine ⟨?_, Nat.le_trans ih.fresh what.fresh, ih.buf, ?_, ?_, ih.own, ?_⟩
    · intro n o h
      rcases what.new n o h with h | h
      · exact Nat.lt_of_lt_of_le (ih.wf n o h) what.fresh
      · exact h.2
    · intro i j n o h hm
      rw [what.leave n ⟨i, j, o, h, hm⟩]
      exact ih.made i j n o h hm
    · intro i j o h hm
      exact ⟨(ih.new i j o h hm).1, Nat.lt_of_lt_of_le (ih.new i j o h hm).2 what.fresh⟩
    · intro i j o n h hm hn
      rcases what.new n o hn with hn | hn
      · exact ih.only i j o n h hm hn
      · exact absurd (ih.new i j o h hm).2 (Nat.not_lt.mpr hn.1)
  | @step s ts i j s' j' now fail before busy step ih =>
    have get : ∀ {x l}, (if x = i then some j' else ts x) = some l →
        (x = i ∧ l = j') ∨ (x ≠ i ∧ ts x = some l) := by
      intro x l h
      by_cases hx : x = i
      · rw [if_pos hx] at h; injection h with h; exact .inl ⟨hx, h.symm⟩
      · rw [if_neg hx] at h; exact .inr ⟨hx, h⟩
    rcases ShmJob.step_cases step with ⟨ret, rfl, rfl, rfl⟩ | ⟨path, fd, rfl, rfl, rfl⟩ |
      ⟨buf, buf', path, rfl, hp, h⟩
    · -- nothing to do
      have : (fun x => if x = i then some (ShmJob.done ret) else ts x) = ts := by
        funext x
        by_cases hx : x = i
        · rw [if_pos hx, hx, busy]
        · rw [if_neg hx]
      rw [this]
      exact ih
    · -- the name goes
      have hfd := ih.made i _ path fd busy rfl
      have sub : ∀ n o, (s.unlink path).names n = some o → n ≠ path ∧ s.names n = some o := by
        intro n o h
        simp only [ShmSpace.unlink] at h
        by_cases hn : n = path
        · rw [if_pos hn] at h; cases h
        · rw [if_neg hn] at h; exact ⟨hn, h⟩
      refine ⟨fun n o h => ih.wf n o (sub n o h).2, ih.fresh, ?_, ?_, ?_, ?_, ?_⟩
      · intro x b h
        rcases get h with ⟨-, h⟩ | ⟨-, h⟩
        · cases h
        · exact ih.buf x b h
      · intro x l n o h hm
        rcases get h with ⟨-, rfl⟩ | ⟨hx, h⟩
        · cases hm
        · have h1 := ih.made x l n o h hm
          have hne : n ≠ path := by
            intro hc
            subst hc
            rw [hfd] at h1
            injection h1 with h1
            subst h1
            exact hx (ih.own x i l _ fd h busy (ShmJob.has_of_made hm) rfl)
          show (if n = path then none else s.names n) = some o
          rw [if_neg hne]; exact h1
      · intro x l o h hm
        rcases get h with ⟨-, rfl⟩ | ⟨hx, h⟩
        · exact ih.new i _ o busy hm
        · exact ih.new x l o h hm
      · intro x x' l l' o h h' hm hm'
        rcases get h with ⟨rfl, rfl⟩ | ⟨hx, g⟩
        · rcases get h' with ⟨rfl, rfl⟩ | ⟨hx', h'⟩
          · rfl
          · exact ih.own x x' _ l' o busy h' hm hm'
        · rcases get h' with ⟨rfl, rfl⟩ | ⟨hx', h'⟩
          · exact ih.own x x' l _ o g busy hm hm'
          · exact ih.own x x' l l' o g h' hm hm'
      · intro x l o n h hm hn
        obtain ⟨hne, hn⟩ := sub n o hn
        rcases get h with ⟨rfl, rfl⟩ | ⟨hx, h⟩
        · have := ih.only x _ o n busy hm hn
          injection this with this
          injection this with h1 h2
          exact absurd h1.symm hne
        · exact ih.only x l o n h hm hn
    · have hb' : PathBuf buf' := (shmPath_buf (ih.buf i buf busy) hp).1
      rcases h with ⟨rfl, rfl, -⟩ | ⟨e, -, -, rfl, rfl⟩ | ⟨-, free, rfl, rfl⟩
      · refine ⟨ih.wf, ih.fresh, ?_, ?_, ?_, ?_, ?_⟩
        · intro x b h
          rcases get h with ⟨-, h⟩ | ⟨-, h⟩
          · injection h with h; rw [h]; exact hb'
          · exact ih.buf x b h
        · intro x l n o h hm
          rcases get h with ⟨-, rfl⟩ | ⟨-, h⟩
          · cases hm
          · exact ih.made x l n o h hm
        · intro x l o h hm
          rcases get h with ⟨-, rfl⟩ | ⟨-, h⟩
          · cases hm
          · exact ih.new x l o h hm
        · intro x x' l l' o h h' hm hm'
          rcases get h with ⟨-, rfl⟩ | ⟨-, h⟩
          · cases hm
          · rcases get h' with ⟨-, rfl⟩ | ⟨-, h'⟩
            · cases hm'
            · exact ih.own x x' l l' o h h' hm hm'
        · intro x l o n h hm hn
          rcases get h with ⟨-, rfl⟩ | ⟨-, h⟩
          · cases hm
          · exact ih.only x l o n h hm hn
      · refine ⟨ih.wf, ih.fresh, ?_, ?_, ?_, ?_, ?_⟩
        · intro x b h
          rcases get h with ⟨-, h⟩ | ⟨-, h⟩
          · cases h
          · exact ih.buf x b h
        · intro x l n o h hm
          rcases get h with ⟨-, rfl⟩ | ⟨-, h⟩
          · cases hm
          · exact ih.made x l n o h hm
        · intro x l o h hm
          rcases get h with ⟨-, rfl⟩ | ⟨-, h⟩
          · cases hm
          · exact ih.new x l o h hm
        · intro x x' l l' o h h' hm hm'
          rcases get h with ⟨-, rfl⟩ | ⟨-, h⟩
          · cases hm
          · rcases get h' with ⟨-, rfl⟩ | ⟨-, h'⟩
            · cases hm'
            · exact ih.own x x' l l' o h h' hm hm'
        · intro x l o n h hm hn
          rcases get h with ⟨-, rfl⟩ | ⟨-, h⟩
          · cases hm
          · exact ih.only x l o n h hm hn
      · -- a new name
        have sub : ∀ n o, (if n = path then some s.fresh else s.names n) = some o →
            (n = path ∧ o = s.fresh) ∨ (n ≠ path ∧ s.names n = some o) := by
          intro n o h
          by_cases hn : n = path
          · rw [if_pos hn] at h; injection h with h; exact .inl ⟨hn, h.symm⟩
          · rw [if_neg hn] at h; exact .inr ⟨hn, h⟩
        refine ⟨?_, Nat.le_succ_of_le ih.fresh, ?_, ?_, ?_, ?_, ?_⟩
        · intro n o h
          rcases sub n o h with ⟨-, rfl⟩ | ⟨-, h⟩
          · exact Nat.lt_succ_self _
          · exact Nat.lt_succ_of_lt (ih.wf n o h)
        · intro x b h
          rcases get h with ⟨-, h⟩ | ⟨-, h⟩
          · cases h
          · exact ih.buf x b h
        · intro x l n o h hm
          rcases get h with ⟨-, rfl⟩ | ⟨-, h⟩
          · injection hm with hm; injection hm with h1 h2
            subst h1; subst h2
            exact if_pos rfl
          · have h1 := ih.made x l n o h hm
            have hne : n ≠ path := by
              intro hc; subst hc
              rw [free] at h1; cases h1
            exact (if_neg hne).trans h1
        · intro x l o h hm
          rcases get h with ⟨-, rfl⟩ | ⟨-, h⟩
          · injection hm with hm; subst hm
            exact ⟨ih.fresh, Nat.lt_succ_self _⟩
          · exact ⟨(ih.new x l o h hm).1, Nat.lt_succ_of_lt (ih.new x l o h hm).2⟩
        · intro x x' l l' o h h' hm hm'
          rcases get h with ⟨rfl, rfl⟩ | ⟨hx, g⟩
          · rcases get h' with ⟨rfl, rfl⟩ | ⟨hx', h'⟩
            · rfl
            · injection hm with hm; subst hm
              exact absurd (ih.new x' l' _ h' hm').2 (Nat.lt_irrefl _)
          · rcases get h' with ⟨rfl, rfl⟩ | ⟨hx', h'⟩
            · injection hm' with hm'; subst hm'
              exact absurd (ih.new x l _ g hm).2 (Nat.lt_irrefl _)
            · exact ih.own x x' l l' o g h' hm hm'
        · intro x l o n h hm hn
          rcases get h with ⟨-, rfl⟩ | ⟨-, h⟩
          · injection hm with hm; subst hm
            rcases sub n _ hn with ⟨rfl, -⟩ | ⟨-, hn⟩
            · rfl
            · exact absurd (ih.wf n _ hn) (Nat.lt_irrefl _)
          · rcases sub n o hn with ⟨-, rfl⟩ | ⟨-, hn⟩
            · exact absurd (ih.new x l _ h hm).2 (Nat.lt_irrefl _)
            · exact ih.only x l o n h hm hn

end Vmap
