import Verif.Spec.Fork
import Verif.Proofs.Cells
/- Helper lemmas: two processes after `fork`. -/
namespace Vmap
open Kernel Spec

/-- What one action can change. -/
structure Change (k k' : Kernel) (S : Nat → Prop) : Prop where
  page : k'.page = k.page
  fresh : k.fresh ≤ k'.fresh
  nextFd : k.nextFd ≤ k'.nextFd
  pt : ∀ q, ¬ S q → k'.pt q = k.pt q
  entry : ∀ q e', k'.pt q = some e' →
    (∃ e, k.pt q = some e ∧ e'.obj = e.obj ∧ e'.shared = e.shared ∧
      (e'.copy = e.copy ∨ e'.copy = none ∨ ∃ c, e'.copy = some c ∧ k.fresh ≤ c)) ∨
    (e'.copy = none ∧ (k.fresh ≤ e'.obj ∨ ∃ d f, k.fds d = some f ∧ f.obj = e'.obj))
  fds : ∀ d f, k'.fds d = some f →
    k.fds d = some f ∨ k.fresh ≤ f.obj ∨ ∃ s, k.names s = some f.obj
  names : ∀ s o, k'.names s = some o → k.names s = some o ∨ k.fresh ≤ o
  data : ∀ o, o < k.fresh → k'.data o = k.data o ∨ (∃ d f, k.fds d = some f ∧ f.obj = o) ∨
    (∃ s, k.names s = some o) ∨
    ∃ q e, S q ∧ k.pt q = some e ∧ ((e.shared = true ∧ e.obj = o) ∨ e.copy = some o)
  size : ∀ o, o < k.fresh → k'.size o = k.size o ∨ (∃ d f, k.fds d = some f ∧ f.obj = o) ∨
    (∃ s, k.names s = some o)

/-- Page-table entries and bookkeeping only. -/
theorem Change.pages {k k' : Kernel} {S : Nat → Prop} (h1 : k'.page = k.page)
    (h2 : k'.fresh = k.fresh) (h3 : k'.nextFd = k.nextFd) (h4 : k'.names = k.names)
    (h5 : ∀ d f, k'.fds d = some f → k.fds d = some f) (h6 : k'.data = k.data) (h7 : k'.size = k.size)
    (h8 : ∀ q, ¬ S q → k'.pt q = k.pt q)
    (h9 : ∀ q e', k'.pt q = some e' → ∃ e, k.pt q = some e ∧ e'.obj = e.obj ∧ e'.shared = e.shared ∧
      (e'.copy = e.copy ∨ e'.copy = none)) : Change k k' S where
  page := h1
  fresh := Nat.le_of_eq h2.symm
  nextFd := Nat.le_of_eq h3.symm
  pt := h8
  entry := fun q e' he => by
    obtain ⟨e, a, b, c, d⟩ := h9 q e' he
    exact .inl ⟨e, a, b, c, d.imp id .inl⟩
  fds := fun d f h => .inl (h5 d f h)
  names := fun s o h => .inl (by rw [← h4]; exact h)
  data := fun o _ => .inl (by rw [h6])
  size := fun o _ => .inl (by rw [h7])

theorem Change.refl (k : Kernel) (S) : Change k k S :=
  .pages rfl rfl rfl rfl (fun _ _ h => h) rfl rfl (fun _ _ => rfl)
    (fun _ e h => ⟨e, h, rfl, rfl, .inl rfl⟩)

/-- Nothing but bookkeeping. -/
theorem Change.same {k k' : Kernel} {S : Nat → Prop} (h1 : k'.page = k.page)
    (h2 : k'.fresh = k.fresh) (h3 : k'.nextFd = k.nextFd) (h4 : k'.names = k.names)
    (h5 : ∀ d f, k'.fds d = some f → k.fds d = some f) (h6 : k'.data = k.data) (h7 : k'.size = k.size)
    (h8 : k'.pt = k.pt) : Change k k' S :=
  .pages h1 h2 h3 h4 h5 h6 h7 (fun _ _ => by rw [h8])
    (fun _ e h => ⟨e, by rw [← h8]; exact h, rfl, rfl, .inl rfl⟩)

theorem Change.updPt {k k' : Kernel} {p n : Nat} {f : Pte → Pte} (h1 : k'.page = k.page)
    (h2 : k'.fresh = k.fresh) (h3 : k'.nextFd = k.nextFd) (h4 : k'.names = k.names)
    (h5 : k'.fds = k.fds) (h6 : k'.data = k.data) (h7 : k'.size = k.size)
    (h8 : k'.pt = Kernel.updPt k.pt p n f)
    (ho : ∀ e, (f e).obj = e.obj ∧ (f e).shared = e.shared ∧
      ((f e).copy = e.copy ∨ (f e).copy = none)) :
    Change k k' (fun q => p ≤ q ∧ q < p + n) := by
  refine .pages h1 h2 h3 h4 (by rw [h5]; exact fun _ _ h => h) h6 h7 ?_ ?_
  · intro q hq
    rw [h8, Kernel.updPt, if_neg hq]
  · intro q e' he
    rw [h8, Kernel.updPt] at he
    split at he
    · cases h : k.pt q with
      | none => rw [h] at he; cases he
      | some e =>
        rw [h] at he
        injection he with he
        subst he
        exact ⟨e, rfl, (ho e).1, (ho e).2.1, (ho e).2.2⟩
    · exact ⟨e', he, rfl, rfl, .inl rfl⟩

theorem Change.setByte (k : Kernel) (o i b) {S : Nat → Prop}
    (h : (∃ d f, k.fds d = some f ∧ f.obj = o) ∨
      ∃ q e, S q ∧ k.pt q = some e ∧ ((e.shared = true ∧ e.obj = o) ∨ e.copy = some o)) :
    Change k (k.setByte o i b) S where
  page := rfl
  fresh := Nat.le_refl _
  nextFd := Nat.le_refl _
  pt := fun _ _ => rfl
  entry := fun q e he => .inl ⟨e, he, rfl, rfl, .inl rfl⟩
  fds := fun d f h => .inl h
  names := fun s o h => .inl h
  data := fun o' _ => by
    by_cases ho : o' = o
    · subst ho
      rcases h with h | h
      · exact .inr (.inl h)
      · exact .inr (.inr (.inr h))
    · exact .inl (funext fun j => if_neg (fun hh => ho hh.1))
  size := fun _ _ => .inl rfl

theorem change_store {t : Target} {k : Kernel} (w : Wf t k) (a : Nat) (b : Byte) :
    Wf t (Act.run t k (.store a b)) ∧ Change k (Act.run t k (.store a b)) (touches k (.store a b)) := by
  unfold Act.run
  simp only
  cases hs : k.store a b with
  | error e => exact ⟨w, .refl _ _⟩
  | ok k' =>
    refine ⟨(store_effect (S := fun _ => True) (U := noPage) w hs trivial).1, ?_⟩
    simp only
    unfold Kernel.store at hs
    cases he : k.pt (a / k.page) with
    | none => rw [he] at hs; cases hs
    | some e =>
      rw [he] at hs
      dsimp only at hs
      split at hs
      · split at hs
        · rename_i hsh
          injection hs with hs
          subst hs
          exact .setByte _ _ _ _ (.inr ⟨_, e, rfl, he, .inl ⟨hsh, rfl⟩⟩)
        · cases hc : e.copy with
          | some c =>
            rw [hc] at hs
            injection hs with hs
            subst hs
            exact .setByte _ _ _ _ (.inr ⟨_, e, rfl, he, .inr hc⟩)
          | none =>
            rw [hc] at hs
            injection hs with hs
            subst hs
            have hne : ∀ o, o < k.fresh → o ≠ k.fresh := fun o h => by omega
            refine ⟨rfl, Nat.le_succ _, Nat.le_refl _, ?_, ?_, fun d f h => .inl h,
              fun s o h => .inl h, ?_, fun o _ => .inl rfl⟩
            · intro q hq
              exact if_neg hq
            · intro q e' he'
              have he' : (if q = a / k.page then some { e with copy := some k.fresh } else k.pt q)
                  = some e' := he'
              split at he'
              · rename_i hq
                injection he' with he'
                subst he'
                exact .inl ⟨e, by rw [hq]; exact he, rfl, rfl, .inr (.inr ⟨_, rfl, Nat.le_refl _⟩)⟩
              · exact .inl ⟨e', he', rfl, rfl, .inl rfl⟩
            · intro o ho
              refine .inl (funext fun j => ?_)
              show (if o = k.fresh ∧ _ then b else if o = k.fresh then _ else k.data o j) = _
              rw [if_neg (fun hh => hne o ho hh.1), if_neg (hne o ho)]
      · cases hs

theorem change_mmap {t : Target} {k : Kernel} (addr len prot flags fd off) :
    Change k (k.mmap t addr len prot flags fd off).1
      (touches k (.mmap addr len prot flags fd off)) := by
  rcases mmap_cases t k addr len prot flags fd off with
    ⟨pt', e, he, h2, h3⟩ | ⟨p, -, -, -, h4, h5, h6, h7, h8⟩
  · rw [he]
    refine .pages rfl rfl rfl rfl (fun _ _ h => h) rfl rfl ?_ ?_
    · intro q hq
      show pt' q = k.pt q
      simp only [touches] at hq
      by_cases hf : flags.fixed = true
      · rw [if_pos hf] at hq
        rcases h3 q with h | ⟨-, h⟩
        · exact h
        · exact absurd h hq
      · rw [h2 (by simpa using hf)]
    · intro q e' he'
      have he' : pt' q = some e' := he'
      rcases h3 q with h | ⟨h, -⟩
      · exact ⟨e', by rw [← h]; exact he', rfl, rfl, .inl rfl⟩
      · rw [h] at he'; cases he'
  · have hout : ∀ {o idx sh mw} q, ¬ touches k (.mmap addr len prot flags fd off) q →
        mappedPt k.pt p (k.pages len) o idx prot sh mw q = k.pt q := by
      intro o idx sh mw q hq
      refine if_neg (fun hin => hq ?_)
      simp only [touches]
      by_cases hf : flags.fixed = true
      · rw [if_pos hf, ← (h6 hf).1]; exact hin
      · rw [if_neg hf]; exact h7 (by simpa using hf) q hin.1 hin.2
    have hin : ∀ {o idx sh mw} q e', mappedPt k.pt p (k.pages len) o idx prot sh mw q = some e' →
        k.pt q = some e' ∨ (e'.copy = none ∧ e'.obj = o) := by
      intro o idx sh mw q e' he'
      unfold mappedPt at he'
      split at he'
      · injection he' with he'; subst he'; exact .inr ⟨rfl, rfl⟩
      · exact .inl he'
    rcases h8 with ⟨-, he⟩ | ⟨-, d, f, -, hf, -, -, he⟩
    · rw [he]
      refine ⟨rfl, Nat.le_succ _, Nat.le_refl _, hout, ?_, fun d f h => .inl h, fun s o h => .inl h,
        ?_, ?_⟩
      · intro q e' he'
        rcases hin q e' he' with h | ⟨h, h'⟩
        · exact .inl ⟨e', h, rfl, rfl, .inl rfl⟩
        · exact .inr ⟨h, .inl (Nat.le_of_eq h'.symm)⟩
      · intro o ho
        exact .inl (funext fun j => if_neg (by omega))
      · intro o ho
        exact .inl (if_neg (by omega))
    · rw [he]
      refine ⟨rfl, Nat.le_refl _, Nat.le_refl _, hout, ?_, fun d f h => .inl h, fun s o h => .inl h,
        fun _ _ => .inl rfl, fun _ _ => .inl rfl⟩
      intro q e' he'
      rcases hin q e' he' with h | ⟨h, h'⟩
      · exact .inl ⟨e', h, rfl, rfl, .inl rfl⟩
      · exact .inr ⟨h, .inr ⟨d, f, hf, h'.symm⟩⟩

theorem change_munmap (k : Kernel) (addr len) :
    Change k (k.munmap addr len).1 (touches k (.munmap addr len)) := by
  by_cases hc : (decide (len = 0) || addr % k.tock.page != 0) = true
  · have : (k.munmap addr len).1 = { k with tick := k.tick + 1, log := ⟨.munmap addr len, .error EINVAL⟩ :: k.log } := by
      simp only [Kernel.munmap, record, munmapCore]; rw [if_pos hc]; rfl
    rw [this]
    exact .same rfl rfl rfl rfl (fun _ _ h => h) rfl rfl rfl
  · simp only [Bool.or_eq_true, decide_eq_true_eq, bne_iff_ne, ne_eq, not_or,
      Decidable.not_not, tock] at hc
    rw [munmap_eq hc.1 hc.2]
    refine .pages rfl rfl rfl rfl (fun _ _ h => h) rfl rfl (fun q hq => if_neg hq) ?_
    intro q e' he
    dsimp only at he
    split at he
    · cases he
    · exact ⟨e', he, rfl, rfl, .inl rfl⟩

theorem openFile_cases (k : Kernel) (path : String) (write creat excl trunc : Bool) :
    (∃ e, (k.openFile path write creat excl trunc).1 = k.logged (.open path) (.error e)) ∨
    (∃ o, k.names path = some o ∧ (k.openFile path write creat excl trunc).1 =
      { k.logged (.open path) (.ok k.nextFd) with
        size := fun o' => if trunc = true ∧ o' = o then 0 else k.size o'
        data := fun o' i => if trunc = true ∧ o' = o then 0 else k.data o' i
        fds := fun d => if d = k.nextFd then some ⟨o, true, write⟩ else k.fds d
        nextFd := k.nextFd + 1 }) ∨
    (k.names path = none ∧ (k.openFile path write creat excl trunc).1 =
      { k.logged (.open path) (.ok k.nextFd) with
        size := fun o' => if o' = k.fresh then 0 else k.size o'
        data := fun o' i => if o' = k.fresh then 0 else k.data o' i
        names := fun n => if n = path then some k.fresh else k.names n
        fresh := k.fresh + 1
        fds := fun d => if d = k.nextFd then some ⟨k.fresh, true, write⟩ else k.fds d
        nextFd := k.nextFd + 1 }) := by
  unfold openFile record openCore
  simp only
  by_cases hok : k.now.ok = true
  · rw [if_neg (by simp [hok])]
    have hnm : k.tock.names path = k.names path := rfl
    rw [hnm]
    cases hn : k.names path with
    | none =>
      simp only
      by_cases hcr : creat = true
      · rw [if_pos hcr]; exact .inr (.inr ⟨trivial, rfl⟩)
      · rw [if_neg hcr]; exact .inl ⟨_, rfl⟩
    | some o =>
      simp only
      by_cases hce : (creat && excl) = true
      · rw [if_pos hce]; exact .inl ⟨_, rfl⟩
      · rw [if_neg hce]
        by_cases htr : trunc = true
        · rw [if_pos htr]
          refine .inr (.inl ⟨o, rfl, ?_⟩)
          subst htr
          simp only [addFd, resizeObj, tock, logged, true_and, Nat.zero_le, true_or, and_true]
          rfl
        · rw [if_neg htr]
          refine .inr (.inl ⟨o, rfl, ?_⟩)
          have : trunc = false := by simpa using htr
          subst this
          simp only [addFd, tock, logged, Bool.false_eq_true, false_and, if_false]
          rfl
  · rw [if_pos (by simp [hok])]
    exact .inl ⟨_, rfl⟩

theorem change_open {t : Target} {k : Kernel} (w : Wf t k) (path write creat excl trunc) :
    Wf t (k.openFile path write creat excl trunc).1 ∧
    Change k (k.openFile path write creat excl trunc).1
      (touches k (.open path write creat excl trunc)) := by
  rcases openFile_cases k path write creat excl trunc with ⟨e, he⟩ | ⟨o, ho, he⟩ | ⟨hn, he⟩
  · rw [he]
    exact ⟨w.logged _ _, .same rfl rfl rfl rfl (fun _ _ h => h) rfl rfl rfl⟩
  · rw [he]
    have key : ∀ d f, (if d = k.nextFd then some (⟨o, true, write⟩ : Fd) else k.fds d) = some f →
        (k.fds d = some f) ∨ (d = k.nextFd ∧ f.obj = o) := by
      intro d f hd
      split at hd
      · rename_i e; injection hd with hd; subst hd; exact .inr ⟨e, rfl⟩
      · exact .inl hd
    refine ⟨⟨w.page, w.addr, w.objs, ?_, w.names, ?_, w.shared⟩, ?_⟩
    · intro d f hd
      show _ ∧ d < k.nextFd + 1
      rcases key d f hd with h | ⟨h1, h2⟩
      · have := w.fds d f h; exact ⟨this.1, by omega⟩
      · exact ⟨by rw [h2]; exact w.names _ _ ho, by omega⟩
    · intro p e c he hc
      obtain ⟨x1, x2, x3⟩ := w.excl p e c he hc
      refine ⟨x1, ?_, x3⟩
      intro d f hd
      rcases key d f hd with h | ⟨h1, h2⟩
      · exact x2 d f h
      · rw [h2]; exact x3 _ _ ho
    · refine ⟨rfl, Nat.le_refl _, Nat.le_succ _, fun _ _ => rfl,
        fun q e h => .inl ⟨e, h, rfl, rfl, .inl rfl⟩, ?_, fun s o h => .inl h, ?_, ?_⟩
      · intro d f hd
        rcases key d f hd with h | ⟨h1, h2⟩
        · exact .inl h
        · exact .inr (.inr ⟨path, by rw [h2]; exact ho⟩)
      · intro x hx
        by_cases hxo : x = o
        · exact .inr (.inr (.inl ⟨path, by rw [hxo]; exact ho⟩))
        · exact .inl (funext fun j => if_neg (fun hh => hxo hh.2))
      · intro x hx
        by_cases hxo : x = o
        · exact .inr (.inr ⟨path, by rw [hxo]; exact ho⟩)
        · exact .inl (if_neg (fun hh => hxo hh.2))
  · rw [he]
    have key : ∀ d f, (if d = k.nextFd then some (⟨k.fresh, true, write⟩ : Fd) else k.fds d) = some f →
        (k.fds d = some f) ∨ (d = k.nextFd ∧ f.obj = k.fresh) := by
      intro d f hd
      split at hd
      · rename_i e; injection hd with hd; subst hd; exact .inr ⟨e, rfl⟩
      · exact .inl hd
    have keyn : ∀ s o, (if s = path then some k.fresh else k.names s) = some o →
        k.names s = some o ∨ o = k.fresh := by
      intro s o hs
      split at hs
      · injection hs with hs; exact .inr hs.symm
      · exact .inl hs
    refine ⟨⟨w.page, w.addr, ?_, ?_, ?_, ?_, w.shared⟩, ?_⟩
    · intro p e he
      have := w.objs p e he
      exact ⟨Nat.lt_succ_of_lt this.1, fun c hc => Nat.lt_succ_of_lt (this.2 c hc)⟩
    · intro d f hd
      show f.obj < k.fresh + 1 ∧ d < k.nextFd + 1
      rcases key d f hd with h | ⟨h1, h2⟩
      · have := w.fds d f h; omega
      · omega
    · intro s o hs
      show o < k.fresh + 1
      rcases keyn s o hs with h | h
      · have := w.names s o h; omega
      · omega
    · intro p e c he hc
      obtain ⟨x1, x2, x3⟩ := w.excl p e c he hc
      refine ⟨x1, ?_, ?_⟩
      · intro d f hd
        rcases key d f hd with h | ⟨h1, h2⟩
        · exact x2 d f h
        · rw [h2]; exact w.fresh_ne p e c he hc
      · intro s o hs
        rcases keyn s o hs with h | h
        · exact x3 s o h
        · rw [h]; exact w.fresh_ne p e c he hc
    · refine ⟨rfl, Nat.le_succ _, Nat.le_succ _, fun _ _ => rfl,
        fun q e h => .inl ⟨e, h, rfl, rfl, .inl rfl⟩, ?_, ?_, ?_, ?_⟩
      · intro d f hd
        rcases key d f hd with h | ⟨h1, h2⟩
        · exact .inl h
        · exact .inr (.inl (Nat.le_of_eq h2.symm))
      · intro s o hs
        rcases keyn s o hs with h | h
        · exact .inl h
        · exact .inr (Nat.le_of_eq h.symm)
      · intro x hx
        exact .inl (funext fun j => if_neg (by omega))
      · intro x hx
        exact .inl (if_neg (by omega))

theorem fstat_logged (k : Kernel) (fd : Nat) :
    ∃ r, (k.fstatLen fd).1 = k.logged (.fstat fd) r := by
  unfold fstatLen record fstatLenCore
  simp only
  have hfd : k.tock.fds fd = k.fds fd := rfl
  rw [hfd]
  cases k.fds fd with
  | none => exact ⟨_, rfl⟩
  | some f =>
    simp only
    by_cases hok : (!k.now.ok) = true
    · rw [if_pos hok]; exact ⟨_, rfl⟩
    · rw [if_neg hok]; exact ⟨_, rfl⟩

theorem act_change {t : Target} {k : Kernel} (w : Wf t k) (a : Act) :
    Wf t (a.run t k) ∧ Change k (a.run t k) (touches k a) := by
  cases a with
  | store a b => exact change_store w a b
  | mmap addr len prot flags fd off =>
    exact ⟨w.mmap _ _ _ _ _ _, change_mmap addr len prot flags fd off⟩
  | munmap addr len => exact ⟨w.munmap _ _, change_munmap k addr len⟩
  | mprotect addr len prot =>
    rcases mprotect_cases k addr len prot with ⟨e, he⟩ | ⟨-, -, he⟩
    · simp only [Act.run, he]
      exact ⟨w.logged _ _, .same rfl rfl rfl rfl (fun _ _ h => h) rfl rfl rfl⟩
    · simp only [Act.run, he]
      exact ⟨w.updPt rfl rfl rfl rfl rfl rfl (fun e => ⟨rfl, rfl, .inl rfl⟩),
        .updPt rfl rfl rfl rfl rfl rfl rfl rfl (fun e => ⟨rfl, rfl, .inl rfl⟩)⟩
  | msync addr len sync =>
    rcases msync_cases k addr len sync with ⟨e, he⟩ | ⟨-, -, d, he, -⟩
    · simp only [Act.run, he]
      exact ⟨w.logged _ _, .same rfl rfl rfl rfl (fun _ _ h => h) rfl rfl rfl⟩
    · simp only [Act.run, he]
      exact ⟨w.sub rfl (fun _ _ h => h) (fun _ _ h => h) (fun _ _ h => h) (Nat.le_refl _)
        (Nat.le_refl _), .same rfl rfl rfl rfl (fun _ _ h => h) rfl rfl rfl⟩
  | madvise addr len adv =>
    rcases madvise_cases k addr len adv with ⟨e, he⟩ | ⟨-, -, he⟩
    · simp only [Act.run, he]
      exact ⟨w.logged _ _, .same rfl rfl rfl rfl (fun _ _ h => h) rfl rfl rfl⟩
    · simp only [Act.run, he]
      by_cases hd : adv = .dontneed
      · simp only [if_pos hd]
        exact ⟨w.updPt rfl rfl rfl rfl rfl rfl (fun e => ⟨rfl, rfl, .inr rfl⟩),
          .updPt rfl rfl rfl rfl rfl rfl rfl rfl (fun e => ⟨rfl, rfl, .inr rfl⟩)⟩
      · simp only [if_neg hd]
        exact ⟨w.logged _ _, .same rfl rfl rfl rfl (fun _ _ h => h) rfl rfl rfl⟩
  | mlock addr len on =>
    rcases mlock_cases k addr len on with ⟨e, he⟩ | ⟨-, -, he⟩
    · simp only [Act.run, he]
      exact ⟨w.logged _ _, .same rfl rfl rfl rfl (fun _ _ h => h) rfl rfl rfl⟩
    · simp only [Act.run, he]
      exact ⟨w.updPt rfl rfl rfl rfl rfl rfl (fun e => ⟨rfl, rfl, .inl rfl⟩),
        .updPt rfl rfl rfl rfl rfl rfl rfl rfl (fun e => ⟨rfl, rfl, .inl rfl⟩)⟩
  | memfd =>
    refine ⟨w.memfd, ?_⟩
    rcases memfd_cases k with ⟨e, he⟩ | he
    · simp only [Act.run, he]
      exact .same rfl rfl rfl rfl (fun _ _ h => h) rfl rfl rfl
    · simp only [Act.run, he]
      refine ⟨rfl, Nat.le_succ _, Nat.le_succ _, fun _ _ => rfl,
        fun q e h => .inl ⟨e, h, rfl, rfl, .inl rfl⟩, ?_, fun s o h => .inl h, ?_, ?_⟩
      · intro d f hd
        dsimp only at hd
        split at hd
        · injection hd with hd; subst hd; exact .inr (.inl (Nat.le_refl _))
        · exact .inl hd
      · intro x hx
        exact .inl (funext fun j => if_neg (by omega))
      · intro x hx
        exact .inl (if_neg (by omega))
  | ftruncate fd len =>
    refine ⟨w.ftruncate _ _, ?_⟩
    rcases ftruncate_cases t k fd len with ⟨e, he⟩ | ⟨f, hf, -, -, he⟩
    · simp only [Act.run, he]
      exact .same rfl rfl rfl rfl (fun _ _ h => h) rfl rfl rfl
    · simp only [Act.run, he]
      refine ⟨rfl, Nat.le_refl _, Nat.le_refl _, fun _ _ => rfl,
        fun q e h => .inl ⟨e, h, rfl, rfl, .inl rfl⟩, fun _ _ h => .inl h, fun s o h => .inl h, ?_, ?_⟩
      · intro x hx
        by_cases hxo : x = f.obj
        · exact .inr (.inl ⟨fd, f, hf, hxo.symm⟩)
        · exact .inl (funext fun j => if_neg (fun hh => hxo hh.1))
      · intro x hx
        by_cases hxo : x = f.obj
        · exact .inr (.inl ⟨fd, f, hf, hxo.symm⟩)
        · exact .inl (if_neg hxo)
  | fstat fd =>
    obtain ⟨r, hr⟩ := fstat_logged k fd
    simp only [Act.run, hr]
    exact ⟨w.logged _ _, .same rfl rfl rfl rfl (fun _ _ h => h) rfl rfl rfl⟩
  | close fd =>
    refine ⟨w.close fd, .same rfl rfl rfl rfl ?_ rfl rfl rfl⟩
    intro d f hd
    simp only [Act.run, Kernel.close, tock] at hd
    split at hd
    · cases hd
    · exact hd
  | «open» path write creat excl trunc => exact change_open w path write creat excl trunc
  | pwrite fd i b =>
    simp only [Act.run]
    cases hf : k.fds fd with
    | none => exact ⟨w, .refl _ _⟩
    | some f => exact ⟨w.setByte _ _ _, .setByte _ _ _ _ (.inl ⟨fd, f, hf, rfl⟩)⟩

/-! ### What an action cannot reach -/

/-- Nothing leads to object `o`. -/
structure Unseen (k : Kernel) (o : Obj) : Prop where
  fds : ∀ d f, k.fds d = some f → f.obj ≠ o
  names : ∀ s, k.names s ≠ some o
  pages : ∀ q e, k.pt q = some e → e.obj ≠ o ∧ e.copy ≠ some o

/-- Object `o` is shown on private pages at most. -/
structure Alone (k : Kernel) (o : Obj) : Prop where
  old : o < k.fresh
  fds : ∀ d f, k.fds d = some f → f.obj ≠ o
  names : ∀ s, k.names s ≠ some o
  pages : ∀ q e, k.pt q = some e → e.copy ≠ some o ∧ (e.obj = o → e.shared = false)

theorem Unseen.step {k k' : Kernel} {S o} (h : Unseen k o) (ho : o < k.fresh) (g : Change k k' S) :
    Unseen k' o ∧ k'.data o = k.data o := by
  refine ⟨⟨?_, ?_, ?_⟩, ?_⟩
  · intro d f hd
    rcases g.fds d f hd with h1 | h1 | ⟨s, h1⟩
    · exact h.fds d f h1
    · omega
    · intro hf; rw [hf] at h1; exact h.names s h1
  · intro s hs
    rcases g.names s o hs with h1 | h1
    · exact h.names s h1
    · omega
  · intro q e he
    rcases g.entry q e he with ⟨e0, a1, a2, -, a4⟩ | ⟨a1, a2 | ⟨d, f, a2, a3⟩⟩
    · obtain ⟨b1, b2⟩ := h.pages q e0 a1
      refine ⟨by rw [a2]; exact b1, ?_⟩
      rcases a4 with a4 | a4 | ⟨c, a4, a5⟩
      · rw [a4]; exact b2
      · rw [a4]; intro hh; cases hh
      · rw [a4]; intro hh; injection hh with hh; omega
    · exact ⟨by omega, by rw [a1]; intro hh; cases hh⟩
    · exact ⟨by rw [← a3]; exact h.fds d f a2, by rw [a1]; intro hh; cases hh⟩
  · rcases g.data o ho with h1 | ⟨d, f, h1, h2⟩ | ⟨s, h1⟩ | ⟨q, e, -, h1, h2⟩
    · exact h1
    · exact absurd h2 (h.fds d f h1)
    · exact absurd h1 (h.names s)
    · rcases h2 with ⟨-, h2⟩ | h2
      · exact absurd h2 (h.pages q e h1).1
      · exact absurd h2 (h.pages q e h1).2

theorem Alone.step {k k' : Kernel} {S o} (h : Alone k o) (g : Change k k' S) :
    Alone k' o ∧ k'.data o = k.data o ∧ k'.size o = k.size o := by
  have ho := h.old
  refine ⟨⟨Nat.lt_of_lt_of_le ho g.fresh, ?_, ?_, ?_⟩, ?_, ?_⟩
  · intro d f hd
    rcases g.fds d f hd with h1 | h1 | ⟨s, h1⟩
    · exact h.fds d f h1
    · omega
    · intro hf; rw [hf] at h1; exact h.names s h1
  · intro s hs
    rcases g.names s o hs with h1 | h1
    · exact h.names s h1
    · omega
  · intro q e he
    rcases g.entry q e he with ⟨e0, a1, a2, a3, a4⟩ | ⟨a1, a2 | ⟨d, f, a2, a3⟩⟩
    · obtain ⟨b1, b2⟩ := h.pages q e0 a1
      refine ⟨?_, by rw [a2, a3]; exact b2⟩
      rcases a4 with a4 | a4 | ⟨c, a4, a5⟩
      · rw [a4]; exact b1
      · rw [a4]; intro hh; cases hh
      · rw [a4]; intro hh; injection hh with hh; omega
    · exact ⟨(by rw [a1]; intro hh; cases hh), by omega⟩
    · exact ⟨(by rw [a1]; intro hh; cases hh), fun hh => absurd (a3.trans hh) (h.fds d f a2)⟩
  · rcases g.data o ho with h1 | ⟨d, f, h1, h2⟩ | ⟨s, h1⟩ | ⟨q, e, -, h1, h2⟩
    · exact h1
    · exact absurd h2 (h.fds d f h1)
    · exact absurd h1 (h.names s)
    · rcases h2 with ⟨h2, h3⟩ | h2
      · rw [(h.pages q e h1).2 h3] at h2; cases h2
      · exact absurd h2 (h.pages q e h1).1
  · rcases g.size o ho with h1 | ⟨d, f, h1, h2⟩ | ⟨s, h1⟩
    · exact h1
    · exact absurd h2 (h.fds d f h1)
    · exact absurd h1 (h.names s)

/-! ### Two views of one machine -/

/-- The state `v'`, seen with the page table and the descriptors of `u`. -/
def besides (v' u : Kernel) : Kernel := { v' with pt := u.pt, fds := u.fds, nextFd := u.nextFd }

/-- Private copies of `v` are unknown to `u`. -/
def Sep (v u : Kernel) : Prop := ∀ q e c, v.pt q = some e → e.copy = some c →
  (∀ q' e', u.pt q' = some e' → e'.obj ≠ c ∧ e'.copy ≠ some c) ∧ ∀ d f, u.fds d = some f → f.obj ≠ c

/-- Two processes on one machine. -/
structure Apart (t : Target) (v u : Kernel) : Prop where
  same : u = besides v u
  wv : Wf t v
  wu : Wf t u
  vu : Sep v u
  uv : Sep u v

theorem Apart.symm {t : Target} {v u : Kernel} (h : Apart t v u) : Apart t u v :=
  ⟨by have := h.same; cases v; cases u; simp only [besides, Kernel.mk.injEq] at this ⊢; simp [this],
    h.wu, h.wv, h.uv, h.vu⟩

/-- What a private copy of `u` is to `v`. -/
theorem Apart.unseen {t : Target} {v u : Kernel} (h : Apart t v u) {q e c} (he : u.pt q = some e)
    (hc : e.copy = some c) : Unseen v c ∧ c < v.fresh := by
  obtain ⟨h1, h2⟩ := h.uv q e c he hc
  refine ⟨⟨h2, ?_, h1⟩, ?_⟩
  · intro s hs
    have : u.names = v.names := by rw [h.same]; rfl
    rw [← this] at hs
    exact (h.wu.excl q e c he hc).2.2 s c hs rfl
  · have : u.fresh = v.fresh := by rw [h.same]; rfl
    rw [← this]; exact (h.wu.objs q e he).2 c hc

theorem Apart.step {t : Target} {v u : Kernel} (h : Apart t v u) (a : Act) :
    Apart t (a.run t v) (besides (a.run t v) u) := by
  obtain ⟨wf', g⟩ := act_change h.wv a
  generalize a.run t v = v' at wf' g
  generalize touches v a = S at g
  have hfr : u.fresh = v.fresh := by rw [h.same]; rfl
  have hpg : u.page = v.page := by rw [h.same]; rfl
  refine ⟨rfl, wf', ⟨wf'.page, ?_, ?_, ?_, wf'.names, ?_, h.wu.shared⟩, ?_, ?_⟩
  · intro q e he
    show 0 < q ∧ (q + 1) * v'.page < _
    rw [g.page, ← hpg]
    exact h.wu.addr q e he
  · intro q e he
    have := h.wu.objs q e he
    have := g.fresh
    show _ < v'.fresh ∧ ∀ c, _ → _ < v'.fresh
    exact ⟨by omega, fun c hc => by have := (h.wu.objs q e he).2 c hc; omega⟩
  · intro d f hd
    have := h.wu.fds d f hd
    have := g.fresh
    show _ < v'.fresh ∧ d < u.nextFd
    omega
  · intro q e c he hc
    obtain ⟨x1, x2, x3⟩ := h.wu.excl q e c he hc
    refine ⟨x1, x2, ?_⟩
    intro s o hs ho
    subst ho
    obtain ⟨y1, y2⟩ := h.unseen he hc
    exact (y1.step y2 g).1.names s hs
  · intro q e c he hc
    rcases g.entry q e he with ⟨e0, a1, -, -, a4⟩ | ⟨a1, -⟩
    · rcases a4 with a4 | a4 | ⟨c', a4, a5⟩
      · exact h.vu q e0 c a1 (by rw [← a4]; exact hc)
      · rw [a4] at hc; cases hc
      · rw [a4] at hc
        injection hc with hc
        subst hc
        refine ⟨fun q' e' he' => ?_, fun d f hd => ?_⟩
        · have := h.wu.objs q' e' he'
          refine ⟨by omega, fun hh => ?_⟩
          have := this.2 _ hh
          omega
        · have := h.wu.fds d f hd
          omega
    · rw [a1] at hc; cases hc
  · intro q e c he hc
    obtain ⟨y1, y2⟩ := h.unseen he hc
    have := (y1.step y2 g).1
    exact ⟨this.pages, this.fds⟩

/-! ### `fork` -/

theorem fork_old {t : Target} {k : Kernel} {o : Obj} (h : o < k.fresh) :
    (Family.fork t k).k.data o = k.data o := by
  funext i
  exact if_neg (by omega)

theorem fork_entry {t : Target} {k : Kernel} {q : Nat} {e' : Pte}
    (h : (Family.fork t k).pt q = some e') : ∃ e, k.pt q = some e ∧
      e' = { e with copy := e.copy.map (fun _ => k.fresh + q), locked := false } := by
  have h : (k.pt q).map _ = some e' := h
  cases he : k.pt q with
  | none => rw [he] at h; cases h
  | some e => rw [he] at h; injection h with h; exact ⟨e, rfl, h.symm⟩

theorem fork_copy {k : Kernel} {q : Nat} {e : Pte} {c : Obj}
    (h : ({ e with copy := e.copy.map (fun _ => k.fresh + q), locked := false } : Pte).copy = some c) :
    c = k.fresh + q ∧ ∃ c0, e.copy = some c0 := by
  have h : e.copy.map (fun _ => k.fresh + q) = some c := h
  cases hc : e.copy with
  | none => rw [hc] at h; cases h
  | some c0 => rw [hc] at h; injection h with h; exact ⟨h.symm, c0, rfl⟩

theorem fork_apart {t : Target} {k : Kernel} (w : Wf t k) :
    Apart t ((Family.fork t k).view .parent) ((Family.fork t k).view .child) := by
  have hq : ∀ q e, k.pt q = some e → q < t.lim := by
    intro q e he
    have h1 := (w.addr q e he).2
    have := Nat.le_mul_of_pos_right (q + 1) w.page_pos
    omega
  refine ⟨rfl, ?_, ⟨w.page, ?_, ?_, ?_, ?_, ?_, ?_⟩, ?_, ?_⟩
  · exact w.sub rfl (fun _ _ h => h) (fun _ _ h => h) (fun _ _ h => h) (Nat.le_add_right _ _)
      (Nat.le_refl _)
  · intro q e' he'
    obtain ⟨e, h1, rfl⟩ := fork_entry (t := t) he'
    exact w.addr q e h1
  · intro q e' he'
    obtain ⟨e, h1, rfl⟩ := fork_entry (t := t) he'
    show e.obj < k.fresh + t.lim ∧ ∀ c, _ → c < k.fresh + t.lim
    have := (w.objs q e h1).1
    refine ⟨by omega, fun c hc => ?_⟩
    obtain ⟨rfl, -⟩ := fork_copy hc
    have := hq q e h1
    omega
  · intro d f hd
    have := w.fds d f hd
    show f.obj < k.fresh + t.lim ∧ d < k.nextFd
    omega
  · intro s o hs
    have := w.names s o hs
    show o < k.fresh + t.lim
    omega
  · intro q e' c he' hc
    obtain ⟨e, h1, rfl⟩ := fork_entry (t := t) he'
    obtain ⟨rfl, -⟩ := fork_copy hc
    refine ⟨?_, ?_, ?_⟩
    · intro q2 e2 he2
      obtain ⟨e3, h3, rfl⟩ := fork_entry (t := t) he2
      have := (w.objs q2 e3 h3).1
      refine ⟨by show e3.obj ≠ _; omega, fun hc2 => ?_⟩
      have := (fork_copy hc2).1
      omega
    · intro d f hd
      have := (w.fds d f hd).1
      omega
    · intro s o hs
      have := w.names s o hs
      omega
  · intro q e' he' hs
    obtain ⟨e, h1, rfl⟩ := fork_entry (t := t) he'
    show e.copy.map _ = none
    rw [w.shared q e h1 hs]; rfl
  · intro q e c he hc
    have hcl := (w.objs q e he).2 c hc
    refine ⟨?_, (w.excl q e c he hc).2.1⟩
    intro q2 e2 he2
    obtain ⟨e3, h3, rfl⟩ := fork_entry (t := t) he2
    refine ⟨((w.excl q e c he hc).1 q2 e3 h3).1, fun hc2 => ?_⟩
    have := (fork_copy hc2).1
    omega
  · intro q e' c he' hc
    obtain ⟨e, h1, rfl⟩ := fork_entry (t := t) he'
    obtain ⟨rfl, -⟩ := fork_copy hc
    refine ⟨?_, ?_⟩
    · intro q2 e2 he2
      have := w.objs q2 e2 he2
      refine ⟨by omega, fun hc2 => ?_⟩
      have := this.2 _ hc2
      omega
    · intro d f hd
      have := (w.fds d f hd).1
      omega

/-- Every page of memory `m` has a byte of it. -/
theorem onPage_has {u : Nat} {m : MapMut} {q : Nat} (hu : 0 < u) (hpos : 0 < m.len)
    (h : (Handle.map m).OnPage u q) : ∃ j, j < m.len ∧ (m.ptr + j) / u = q := by
  obtain ⟨h1, h2⟩ := h
  have h1 : q * u < m.ptr + m.len := h1
  have h2 : m.ptr < (q + 1) * u := h2
  rw [Nat.succ_mul] at h2
  by_cases hle : q * u ≤ m.ptr
  · refine ⟨0, hpos, ?_⟩
    rw [Nat.add_zero]
    exact Nat.div_eq_of_lt_le hle (by rw [Nat.succ_mul]; exact h2)
  · refine ⟨q * u - m.ptr, by omega, ?_⟩
    rw [show m.ptr + (q * u - m.ptr) = q * u by omega]
    exact Nat.mul_div_cancel q hu

/-- What other private pages' owner cannot disturb. -/
theorem CellInv.alone {t : Target} {k : Kernel} (wf : Wf t k) {m o d c} (g : CellInv k m o d false c)
    (hpos : 0 < m.len) : Alone k o := by
  obtain ⟨e0, a1, a2, -⟩ := g.over 0 hpos
  obtain ⟨o1, o2, o3⟩ := g.own _ e0 (onPage_byte wf.page_pos hpos) a1
  rw [a2] at o1 o2 o3
  refine ⟨by rw [← a2]; exact (wf.objs _ e0 a1).1, o1, o2, ?_⟩
  intro q e he
  refine ⟨fun hc => ((wf.excl q e o he hc).1 _ e0 a1).1 a2, fun ho => ?_⟩
  obtain ⟨j, hj, hjq⟩ := onPage_has wf.page_pos hpos (o3 q e he ho)
  obtain ⟨e1, b1, -, -, b4, -⟩ := g.over j hj
  rw [hjq, he] at b1
  injection b1 with b1
  subst b1
  exact b4

theorem CellInv.get {t : Target} {k : Kernel} (wf : Wf t k) {m o d sh c} (g : CellInv k m o d sh c)
    {j : Nat} (hj : j < m.len) : m.get k j = .ok (c j) := by
  obtain ⟨e, h1, h2, h3, -, h5⟩ := g.over j hj
  obtain ⟨ov, l1, l2⟩ := g.laid
  rw [MapMut.get, if_pos hj, load_over wf.page_pos h1 h3 h5, h2, if_pos (g.inside j hj),
    l1 j hj e h1, l2 j hj]

/-- Memory `m` at the moment of `fork`, in both processes. -/
theorem CellInv.fork {t : Target} {k : Kernel} (w : Wf t k) {m o d sh c}
    (g : CellInv k m o d sh c) (hpos : 0 < m.len) (p : Who) :
    CellInv ((Family.fork t k).view p) m o d sh c := by
  obtain ⟨e0, a1, a2, -⟩ := g.over 0 hpos
  have ho : o < k.fresh := by rw [← a2]; exact (w.objs _ e0 a1).1
  obtain ⟨ov, l1, l2⟩ := g.laid
  have hdat : ∀ p, ((Family.fork t k).view p).data o = k.data o := by
    intro p; cases p <;> exact fork_old (t := t) ho
  cases p with
  | parent =>
    refine ⟨g.own, g.over, g.inside, fun hs x => by rw [hdat]; exact g.zero hs x, ov, ?_,
      fun j hj => by rw [hdat]; exact l2 j hj⟩
    intro j hj e he
    rw [← l1 j hj e he]
    unfold at?
    cases hc : e.copy with
    | none => rfl
    | some c0 =>
      simp only [Option.map_some]
      rw [show ((Family.fork t k).view .parent).data c0 = k.data c0 from
        fork_old ((w.objs _ e he).2 c0 hc)]
      rfl
  | child =>
    refine ⟨?_, ?_, g.inside, fun hs x => by rw [hdat]; exact g.zero hs x, ov, ?_,
      fun j hj => by rw [hdat]; exact l2 j hj⟩
    · refine own_kept g.own rfl rfl rfl ?_
      intro q e' he'
      obtain ⟨e, h1, rfl⟩ := fork_entry (t := t) he'
      exact ⟨e, h1, rfl⟩
    · intro j hj
      obtain ⟨e, h1, h2, h3, h4, h5⟩ := g.over j hj
      refine ⟨{ e with copy := e.copy.map (fun _ => k.fresh + (m.ptr + j) / k.page), locked := false },
        ?_, h2, h3, h4, h5⟩
      show (k.pt _).map _ = _
      rw [show ((Family.fork t k).view .child).page = k.page from rfl, h1]; rfl
    · intro j hj e' he'
      obtain ⟨e, h1, rfl⟩ := fork_entry (t := t) he'
      rw [← l1 j hj e h1]
      unfold at?
      cases hc : e.copy with
      | none => rfl
      | some c0 =>
        simp only [Option.map_some, Option.some.injEq]
        show (if k.fresh ≤ _ then _ else _) = _
        rw [if_pos (by exact Nat.le_add_right _ _),
          show k.fresh + (m.ptr + j) / ((Family.fork t k).view .child).page - k.fresh =
            (m.ptr + j) / k.page from Nat.add_sub_cancel_left _ _,
          show k.pt ((m.ptr + j) / k.page) = some e from h1]
        simp only [hc]
        rfl

/-- Its owner does something else. -/
theorem CellInv.mine {t : Target} {k k' : Kernel} {S : Nat → Prop} (wf : Wf t k) {m o d sh c}
    (g : CellInv k m o d sh c) (hpos : 0 < m.len) (ch : Change k k' S)
    (sp : ∀ j, j < m.len → ¬ S ((m.ptr + j) / k.page)) : CellInv k' m o d sh c := by
  obtain ⟨e0, a1, a2, -⟩ := g.over 0 hpos
  obtain ⟨o1, o2, o3⟩ := g.own _ e0 (onPage_byte wf.page_pos hpos) a1
  rw [a2] at o1 o2 o3
  have ho : o < k.fresh := by rw [← a2]; exact (wf.objs _ e0 a1).1
  have hS : ∀ q, (Handle.map m).OnPage k.page q → ¬ S q := by
    intro q hq
    obtain ⟨j, hj, rfl⟩ := onPage_has wf.page_pos hpos hq
    exact sp j hj
  have hdata : k'.data o = k.data o := by
    rcases ch.data o ho with h1 | ⟨d, f, h1, h2⟩ | ⟨s, h1⟩ | ⟨q, e, hq, h1, h2⟩
    · exact h1
    · exact absurd h2 (o1 d f h1)
    · exact absurd h1 (o2 s)
    · rcases h2 with ⟨-, h2⟩ | h2
      · exact absurd hq (hS q (o3 q e h1 h2))
      · exact absurd a2 ((wf.excl q e o h1 h2).1 _ e0 a1).1
  have hsize : k'.size o = k.size o := by
    rcases ch.size o ho with h1 | ⟨d, f, h1, h2⟩ | ⟨s, h1⟩
    · exact h1
    · exact absurd h2 (o1 d f h1)
    · exact absurd h1 (o2 s)
  have hpt : ∀ q, (Handle.map m).OnPage k.page q → k'.pt q = k.pt q := fun q hq => ch.pt q (hS q hq)
  have hobj : ∀ q e, (Handle.map m).OnPage k.page q → k.pt q = some e → e.obj = o := by
    intro q e hq he
    obtain ⟨j, hj, rfl⟩ := onPage_has wf.page_pos hpos hq
    obtain ⟨e1, b1, b2, -⟩ := g.over j hj
    rw [he] at b1
    injection b1 with b1
    rw [b1]; exact b2
  have hon : ∀ j, j < m.len → (Handle.map m).OnPage k.page ((m.ptr + j) / k.page) :=
    fun j hj => onPage_byte wf.page_pos hj
  refine ⟨?_, ?_, ?_, fun hs x => by rw [hdata]; exact g.zero hs x, ?_⟩
  · intro q e hq he
    rw [ch.page] at hq
    rw [hpt q hq] at he
    rw [hobj q e hq he, ch.page]
    refine ⟨?_, ?_, ?_⟩
    · intro d f hd
      rcases ch.fds d f hd with h1 | h1 | ⟨s, h1⟩
      · exact o1 d f h1
      · omega
      · intro hf; rw [hf] at h1; exact o2 s h1
    · intro s hs
      rcases ch.names s o hs with h1 | h1
      · exact o2 s h1
      · omega
    · intro q' e' he' heq
      rcases ch.entry q' e' he' with ⟨e1, b1, b2, -⟩ | ⟨-, b2 | ⟨d, f, b2, b3⟩⟩
      · exact o3 q' e1 b1 (by rw [← b2]; exact heq)
      · omega
      · exact absurd (b3.trans heq) (o1 d f b2)
  · intro j hj
    obtain ⟨e, h1, h2, h3, h4, h5⟩ := g.over j hj
    exact ⟨e, by rw [ch.page, hpt _ (hon j hj)]; exact h1, h2, by rw [ch.page]; exact h3, h4, h5⟩
  · intro j hj
    rw [ch.page, hsize]; exact g.inside j hj
  · obtain ⟨ov, l1, l2⟩ := g.laid
    refine ⟨ov, ?_, fun j hj => by rw [hdata]; exact l2 j hj⟩
    intro j hj e he
    rw [ch.page] at he ⊢
    rw [hpt _ (hon j hj)] at he
    rw [← l1 j hj e he]
    unfold at?
    cases hc : e.copy with
    | none => rfl
    | some x =>
      simp only [Option.map_some, Option.some.injEq]
      obtain ⟨x1, x2, x3⟩ := wf.excl _ e x he hc
      rcases ch.data x ((wf.objs _ e he).2 x hc) with h1 | ⟨d, f, h1, h2⟩ | ⟨s, h1⟩ | ⟨q, e2, hq, h1, h2⟩
      · rw [h1]
      · exact absurd h2 (x2 d f h1)
      · exact absurd rfl (x3 s x h1)
      · rcases h2 with ⟨-, h2⟩ | h2
        · exact absurd h2 (x1 q e2 h1).1
        · rw [(x1 q e2 h1).2 h2] at hq
          exact absurd hq (hS _ (hon j hj))

/-- The other process does anything: private memory. -/
theorem CellInv.theirs {t : Target} {v u : Kernel} (h : Apart t u v) {m o d c}
    (g : CellInv v m o d false c) (hpos : 0 < m.len) (qu : Alone u o) {u' : Kernel} {S}
    (ch : Change u u' S) : CellInv (besides u' v) m o d false c ∧ Alone u' o := by
  have hd0 : v.data = u.data := by rw [h.same]; rfl
  have hs0 : v.size = u.size := by rw [h.same]; rfl
  have hp0 : v.page = u.page := by rw [h.same]; rfl
  obtain ⟨qu', hd, hs⟩ := qu.step ch
  have hpg : (besides u' v).page = v.page := by rw [hp0]; exact ch.page
  have hdat : (besides u' v).data o = v.data o := by rw [hd0]; exact hd
  have hsz : (besides u' v).size o = v.size o := by rw [hs0]; exact hs
  have wf := h.wu
  obtain ⟨e0, a1, a2, -⟩ := g.over 0 hpos
  refine ⟨⟨?_, ?_, ?_, fun hs x => by rw [hdat]; exact g.zero hs x, ?_⟩, qu'⟩
  · intro q e hq he
    rw [hpg] at hq ⊢
    obtain ⟨o1, o2, o3⟩ := g.own q e hq he
    refine ⟨o1, ?_, o3⟩
    have : e.obj = o := by
      obtain ⟨j, hj, rfl⟩ := onPage_has wf.page_pos hpos hq
      obtain ⟨e1, b1, b2, -⟩ := g.over j hj
      have he : v.pt _ = some e := he
      rw [he] at b1
      injection b1 with b1
      rw [b1]; exact b2
    rw [this]
    exact qu'.names
  · intro j hj
    obtain ⟨e, h1, h2, h3, h4, h5⟩ := g.over j hj
    exact ⟨e, by rw [hpg]; exact h1, h2, by rw [hpg]; exact h3, h4, h5⟩
  · intro j hj
    rw [hpg, hsz]; exact g.inside j hj
  · obtain ⟨ov, l1, l2⟩ := g.laid
    refine ⟨ov, ?_, fun j hj => by rw [hdat]; exact l2 j hj⟩
    intro j hj e he
    rw [hpg] at he ⊢
    have he : v.pt _ = some e := he
    rw [← l1 j hj e he]
    unfold at?
    cases hc : e.copy with
    | none => rfl
    | some x =>
      simp only [Option.map_some, Option.some.injEq]
      obtain ⟨y1, y2⟩ := h.unseen he hc
      show u'.data x _ = v.data x _
      rw [(y1.step y2 ch).2, hd0]

/-- The other process does something that leaves the common memory alone, or stores to it. -/
theorem CellInv.common {t : Target} {v u : Kernel} (h : Apart t v u) {m o d c c'}
    (gu : CellInv u m o d true c) (hpos : 0 < m.len) {v' : Kernel} {S}
    (ch : Change v v' S) (gv' : CellInv v' m o d true c') (wv' : Wf t v')
    (wf' : Wf t (besides v' u)) : CellInv (besides v' u) m o d true c' := by
  have hp0 : u.page = v.page := by rw [h.same]; rfl
  have hpg : (besides v' u).page = u.page := by rw [hp0]; exact ch.page
  obtain ⟨e0, a1, a2, -⟩ := gv'.over 0 hpos
  obtain ⟨n1, n2, n3⟩ := gv'.own _ e0 (onPage_byte wv'.page_pos hpos) a1
  rw [a2] at n2
  have hov : (besides v' u).Over m o d true := by
    intro j hj
    obtain ⟨e, h1, h2, h3, h4, h5⟩ := gu.over j hj
    exact ⟨e, by rw [hpg]; exact h1, h2, by rw [hpg]; exact h3, h4, h5⟩
  refine ⟨?_, hov, gv'.inside, fun hs => (by cases hs), fun _ => none, laid_shared wf' hov, ?_⟩
  · intro q e hq he
    rw [hpg] at hq ⊢
    obtain ⟨o1, o2, o3⟩ := gu.own q e hq he
    refine ⟨o1, ?_, o3⟩
    have : e.obj = o := by
      obtain ⟨j, hj, rfl⟩ := onPage_has h.wu.page_pos hpos hq
      obtain ⟨e1, b1, b2, -⟩ := gu.over j hj
      have he : u.pt _ = some e := he
      rw [he] at b1
      injection b1 with b1
      rw [b1]; exact b2
    rw [this]
    exact n2
  · intro j hj
    obtain ⟨ov, l1, l2⟩ := gv'.laid
    rw [l2 j hj]
    obtain ⟨e1, b1, -⟩ := gv'.over j hj
    rw [← l1 j hj e1 b1, laid_shared wv' gv'.over j hj e1 b1]
    rfl

/-! ### Families -/

theorem view_act (t : Target) (f : Family) (p : Who) (a : Act) :
    (f.act t p a).view p = a.run t (f.view p) ∧
    (f.act t p a).view p.other = besides (a.run t (f.view p)) (f.view p.other) := by
  cases p <;> exact ⟨rfl, rfl⟩

theorem Family.apart_act {t : Target} {f : Family} (p : Who) (a : Act)
    (h : Apart t (f.view p) (f.view p.other)) :
    Apart t ((f.act t p a).view p) ((f.act t p a).view p.other) := by
  rw [(view_act t f p a).1, (view_act t f p a).2]
  exact h.step a

theorem other_other (p : Who) : p.other.other = p := by cases p <;> rfl

/-- A store through a map, as an action. -/
theorem set_act {t : Target} {k k' : Kernel} {m : MapMut} {idx b} (h : m.set k idx b = .ok k') :
    idx < m.len ∧ k.store (m.ptr + idx) b = .ok k' ∧ Act.run t k (.store (m.ptr + idx) b) = k' := by
  unfold MapMut.set at h
  split at h
  · rename_i hlt
    exact ⟨hlt, h, by simp only [Act.run, h]⟩
  · cases h

/-- The pages a store leaves mapped as they are. -/
theorem over_store {t : Target} {k k' : Kernel} (wf : Wf t k) {a b} (h : k.store a b = .ok k') {m o d sh}
    (g : k.Over m o d sh) : k'.Over m o d sh := by
  obtain ⟨-, -, sf⟩ := store_effect (U := noPage) wf h (S := fun _ => True) trivial
  intro j hj
  obtain ⟨e, h1, h2, h3, h4, h5⟩ := g j hj
  rw [sf.page]
  rcases sf.pt ((m.ptr + j) / k.page) with g1 | ⟨e', c, g1, -, g3⟩
  · exact ⟨e, by rw [g1]; exact h1, h2, h3, h4, h5⟩
  · rw [h1] at g1
    injection g1 with g1
    subst g1
    exact ⟨_, g3, h2, h3, h4, h5⟩

theorem CellInv.set {t : Target} {k k' : Kernel} (wf : Wf t k) {m o d sh c} (g : CellInv k m o d sh c)
    {idx b} (h : m.set k idx b = .ok k') :
    CellInv k' m o d sh (fun j => if j = idx then b else c j) := by
  obtain ⟨h1, h2, -⟩ := set_act (t := t) h
  obtain ⟨e, a1, a2, -⟩ := g.over idx h1
  exact g.store wf (by rw [← a2]; exact (wf.objs _ e a1).1) h1 h2 (over_store wf h2 g.over)

/-- Private memory since `fork`. -/
theorem PrivateSince.inv {t : Target} {p : Who} {m : MapMut} {f0 f : Family} {c0 c o d}
    (tr : PrivateSince t p m f0 c0 f c) (ap : Apart t (f0.view p) (f0.view p.other))
    (g : CellInv (f0.view p) m o d false c0) (qu : Alone (f0.view p.other) o) (hpos : 0 < m.len) :
    Apart t (f.view p) (f.view p.other) ∧ CellInv (f.view p) m o d false c ∧
      Alone (f.view p.other) o := by
  have quiet : ∀ {f : Family} {c} {a : Act}, Apart t (f.view p) (f.view p.other) →
      CellInv ((f.act t p a).view p) m o d false c → Alone (f.view p.other) o →
      Alone ((f.act t p a).view p.other) o := by
    intro f c a ap g qu
    have ap' := Family.apart_act p a ap
    have gq := g.alone ap'.wv hpos
    have hsame := ap'.same
    refine ⟨by rw [hsame]; exact gq.old, ?_, by rw [hsame]; exact gq.names, ?_⟩
    · rw [(view_act t f p a).2]; exact qu.fds
    · rw [(view_act t f p a).2]; exact qu.pages
  induction tr with
  | start => exact ⟨ap, g, qu⟩
  | @write f c idx b k' _ call ih =>
    obtain ⟨ap1, g1, q1⟩ := ih
    obtain ⟨-, -, h3⟩ := set_act (t := t) call
    have g2 : CellInv ((f.act t p (.store (m.ptr + idx) b)).view p) m o d false
        (fun j => if j = idx then b else c j) := by
      rw [(view_act t f p _).1, h3]
      exact g1.set ap1.wv call
    exact ⟨Family.apart_act p _ ap1, g2, quiet ap1 g2 q1⟩
  | @spared f c a _ sp ih =>
    obtain ⟨ap1, g1, q1⟩ := ih
    have g2 : CellInv ((f.act t p a).view p) m o d false c := by
      rw [(view_act t f p _).1]
      exact g1.mine ap1.wv hpos (act_change ap1.wv a).2 sp
    exact ⟨Family.apart_act p _ ap1, g2, quiet ap1 g2 q1⟩
  | @theirs f c a _ ih =>
    obtain ⟨ap1, g1, q1⟩ := ih
    have ap2 : Apart t (f.view p.other) (f.view p.other.other) := by
      rw [other_other]; exact ap1.symm
    have ap3 := Family.apart_act p.other a ap2
    have hv := view_act t f p.other a
    rw [other_other] at ap3 hv
    obtain ⟨g2, q2⟩ := g1.theirs ap1.symm hpos q1 (act_change ap1.wu a).2
    refine ⟨ap3.symm, ?_, ?_⟩
    · rw [hv.2]; exact g2
    · rw [hv.1]; exact q2

/-- Common memory since `fork`. -/
theorem CommonSince.inv {t : Target} {m : MapMut} {f0 f : Family} {c0 c o d}
    (tr : CommonSince t m f0 c0 f c) (ap : ∀ p, Apart t (f0.view p) (f0.view p.other))
    (g : ∀ p, CellInv (f0.view p) m o d true c0) (hpos : 0 < m.len) :
    ∀ p, Apart t (f.view p) (f.view p.other) ∧ CellInv (f.view p) m o d true c := by
  have both : ∀ {f : Family} {c c'} {p : Who} {a : Act}, Apart t (f.view p) (f.view p.other) →
      CellInv (f.view p.other) m o d true c → CellInv ((f.act t p a).view p) m o d true c' →
      ∀ p', Apart t ((f.act t p a).view p') ((f.act t p a).view p'.other) ∧
        CellInv ((f.act t p a).view p') m o d true c' := by
    intro f c c' p a ap gu g2 p'
    have ap' := Family.apart_act p a ap
    have g3 : CellInv ((f.act t p a).view p.other) m o d true c' := by
      have wf' := ap'.wu
      have wv' := ap'.wv
      rw [(view_act t f p _).2] at wf' ⊢
      rw [(view_act t f p _).1] at g2 wv'
      exact gu.common ap hpos (act_change ap.wv a).2 g2 wv' wf'
    by_cases hp : p' = p
    · subst hp; exact ⟨ap', g2⟩
    · have : p' = p.other := by cases p <;> cases p' <;> first | rfl | exact absurd rfl hp
      subst this
      rw [other_other]
      exact ⟨ap'.symm, g3⟩
  induction tr with
  | start => exact fun p => ⟨ap p, g p⟩
  | @write f c p idx b k' _ call ih =>
    obtain ⟨ap1, g1⟩ := ih p
    obtain ⟨-, -, h3⟩ := set_act (t := t) call
    refine both ap1 (ih p.other).2 ?_
    rw [(view_act t f p _).1, h3]
    exact g1.set ap1.wv call
  | @spared f c p a _ sp ih =>
    obtain ⟨ap1, g1⟩ := ih p
    refine both ap1 (ih p.other).2 ?_
    rw [(view_act t f p _).1]
    exact g1.mine ap1.wv hpos (act_change ap1.wv a).2 sp

/-! ### Copy-on-write maps of files -/

theorem over_fork {t : Target} {k : Kernel} {m o d sh} (g : k.Over m o d sh) (p : Who) :
    ((Family.fork t k).view p).Over m o d sh := by
  cases p with
  | parent => exact g
  | child =>
    intro j hj
    obtain ⟨e, h1, h2, h3, h4, h5⟩ := g j hj
    refine ⟨{ e with copy := e.copy.map (fun _ => k.fresh + (m.ptr + j) / k.page), locked := false },
      ?_, h2, h3, h4, h5⟩
    show (k.pt _).map _ = _
    rw [show ((Family.fork t k).view .child).page = k.page from rfl, h1]; rfl

theorem laid_fork {t : Target} {k : Kernel} (w : Wf t k) {m ov} (l : k.Laid m ov) (p : Who) :
    ((Family.fork t k).view p).Laid m ov := by
  cases p with
  | parent =>
    intro j hj e he
    rw [← l j hj e he]
    unfold at?
    cases hc : e.copy with
    | none => rfl
    | some c0 =>
      simp only [Option.map_some]
      rw [show ((Family.fork t k).view .parent).data c0 = k.data c0 from
        fork_old ((w.objs _ e he).2 c0 hc)]
      rfl
  | child =>
    intro j hj e' he'
    obtain ⟨e, h1, rfl⟩ := fork_entry (t := t) he'
    rw [← l j hj e h1]
    unfold at?
    cases hc : e.copy with
    | none => rfl
    | some c0 =>
      simp only [Option.map_some, Option.some.injEq]
      show (if k.fresh ≤ _ then _ else _) = _
      rw [if_pos (by exact Nat.le_add_right _ _),
        show k.fresh + (m.ptr + j) / ((Family.fork t k).view .child).page - k.fresh =
          (m.ptr + j) / k.page from Nat.add_sub_cancel_left _ _,
        show k.pt ((m.ptr + j) / k.page) = some e from h1]
      simp only [hc]
      rfl

theorem over_mine {k k' : Kernel} {S : Nat → Prop} {m o d sh} (g : k.Over m o d sh)
    (ch : Change k k' S) (sp : ∀ j, j < m.len → ¬ S ((m.ptr + j) / k.page)) : k'.Over m o d sh := by
  intro j hj
  obtain ⟨e, h1, h2, h3, h4, h5⟩ := g j hj
  exact ⟨e, by rw [ch.page, ch.pt _ (sp j hj)]; exact h1, h2, by rw [ch.page]; exact h3, h4, h5⟩

theorem laid_mine {t : Target} {k k' : Kernel} {S : Nat → Prop} (wf : Wf t k) {m ov} (l : k.Laid m ov)
    (ch : Change k k' S) (sp : ∀ j, j < m.len → ¬ S ((m.ptr + j) / k.page)) : k'.Laid m ov := by
  intro j hj e he
  rw [ch.page] at he ⊢
  rw [ch.pt _ (sp j hj)] at he
  rw [← l j hj e he]
  unfold at?
  cases hc : e.copy with
  | none => rfl
  | some x =>
    simp only [Option.map_some, Option.some.injEq]
    obtain ⟨x1, x2, x3⟩ := wf.excl _ e x he hc
    rcases ch.data x ((wf.objs _ e he).2 x hc) with h1 | ⟨d, f, h1, h2⟩ | ⟨s, h1⟩ | ⟨q, e2, hq, h1, h2⟩
    · rw [h1]
    · exact absurd h2 (x2 d f h1)
    · exact absurd rfl (x3 s x h1)
    · rcases h2 with ⟨-, h2⟩ | h2
      · exact absurd h2 (x1 q e2 h1).1
      · rw [(x1 q e2 h1).2 h2] at hq
        exact absurd hq (sp j hj)

theorem laid_theirs {t : Target} {v u u' : Kernel} {S} (h : Apart t u v) {m ov} (l : v.Laid m ov)
    (ch : Change u u' S) : (besides u' v).Laid m ov := by
  have hd0 : v.data = u.data := by rw [h.same]; rfl
  have hpg : (besides u' v).page = v.page := by
    rw [show v.page = u.page by rw [h.same]; rfl]; exact ch.page
  intro j hj e he
  rw [hpg] at he ⊢
  have he : v.pt _ = some e := he
  rw [← l j hj e he]
  unfold at?
  cases hc : e.copy with
  | none => rfl
  | some x =>
    simp only [Option.map_some, Option.some.injEq]
    obtain ⟨y1, y2⟩ := h.unseen he hc
    show u'.data x _ = v.data x _
    rw [(y1.step y2 ch).2, hd0]

theorem over_theirs {t : Target} {v u u' : Kernel} {S} (h : Apart t u v) {m o d sh} (g : v.Over m o d sh)
    (ch : Change u u' S) : (besides u' v).Over m o d sh := by
  have hpg : (besides u' v).page = v.page := by
    rw [show v.page = u.page by rw [h.same]; rfl]; exact ch.page
  intro j hj
  obtain ⟨e, h1, h2, h3, h4, h5⟩ := g j hj
  exact ⟨e, by rw [hpg]; exact h1, h2, by rw [hpg]; exact h3, h4, h5⟩

theorem view_k (f : Family) (p : Who) : (f.view p).page = f.k.page ∧ (f.view p).data = f.k.data ∧
    (f.view p).size = f.k.size := by cases p <;> exact ⟨rfl, rfl, rfl⟩

/-- A copy-on-write map since `fork`. -/
theorem OverlaySince.inv {t : Target} {p : Who} {m : MapMut} {f0 f : Family} {ov0 ov o off}
    (tr : OverlaySince t p m o off f0 ov0 f ov) (ap : Apart t (f0.view p) (f0.view p.other))
    (g : (f0.view p).Over m o off false) (l : (f0.view p).Laid m ov0) :
    Apart t (f.view p) (f.view p.other) ∧ (f.view p).Over m o off false ∧ (f.view p).Laid m ov ∧
      f.k.page = f0.k.page := by
  induction tr with
  | start => exact ⟨ap, g, l, rfl⟩
  | @write f ov idx b k' _ call ih =>
    obtain ⟨ap1, g1, l1, e1⟩ := ih
    obtain ⟨h1, h2, h3⟩ := set_act (t := t) call
    have ap2 := Family.apart_act p (.store (m.ptr + idx) b) ap1
    obtain ⟨v1, v2, -⟩ := view_k f p
    refine ⟨ap2, ?_, ?_, ?_⟩
    · rw [(view_act t f p _).1, h3]
      exact over_store ap1.wv h2 g1
    · rw [(view_act t f p _).1, h3]
      have := laid_store ap1.wv h1 g1 l1 h2
      rw [v1, v2] at this
      exact this
    · rw [← (view_k _ p).1, (view_act t f p _).1, (act_change ap1.wv _).2.page, v1, e1]
  | @spared f ov a _ sp _ ih =>
    obtain ⟨ap1, g1, l1, e1⟩ := ih
    have ch := (act_change ap1.wv a).2
    refine ⟨Family.apart_act p a ap1, ?_, ?_, ?_⟩
    · rw [(view_act t f p _).1]; exact over_mine g1 ch sp
    · rw [(view_act t f p _).1]; exact laid_mine ap1.wv l1 ch sp
    · rw [← (view_k _ p).1, (view_act t f p _).1, ch.page, (view_k f p).1, e1]
  | @theirs f ov a _ _ ih =>
    obtain ⟨ap1, g1, l1, e1⟩ := ih
    have ch := (act_change ap1.wu a).2
    have ap2 : Apart t (f.view p.other) (f.view p.other.other) := by
      rw [other_other]; exact ap1.symm
    have ap3 := Family.apart_act p.other a ap2
    have hv := view_act t f p.other a
    rw [other_other] at ap3 hv
    refine ⟨ap3.symm, ?_, ?_, ?_⟩
    · rw [hv.2]; exact over_theirs ap1.symm g1 ch
    · rw [hv.2]; exact laid_theirs ap1.symm l1 ch
    · rw [← (view_k _ p.other).1, hv.1, ch.page, (view_k f p.other).1, e1]

end Vmap
