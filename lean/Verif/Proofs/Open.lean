import Verif.Proofs.Map
/- Helper lemmas: opening files. -/
namespace Vmap
open Kernel Spec

/-- All outcomes of opening a file. -/
inductive OpenOutcome (tab : SysTable) (k : Kernel) (o : OpenOptions) (path : String) :
    Kernel → IoResult Nat → Prop
  /-- creation or truncation without write access -/
  | refused (write : o.write = false)
      (asks : o.truncate = true ∨ o.create = true ∨ o.createNew = true) :
      OpenOutcome tab k o path k (.error ⟨tab.kindOf (.os EINVAL), some EINVAL, tab.msgOf (.os EINVAL)⟩)
  /-- the system call failed -/
  | failed (e : Errno)
      (writable : o.truncate = true ∨ o.create = true ∨ o.createNew = true → o.write = true) :
      OpenOutcome tab k o path
        { k with tick := k.tick + 1, log := ⟨.open path, .error e⟩ :: k.log }
        (.error ⟨tab.kindOf (.os e), some e, tab.msgOf (.os e)⟩)
  /-- an existing file -/
  | existing (k' : Kernel) (x : Obj) (name : k.names path = some x) (new : o.createNew = false)
      (writable : o.truncate = true ∨ o.create = true ∨ o.createNew = true → o.write = true)
      (state : k' = { k with
        size := k'.size
        data := k'.data
        fds := fun d => if d = k.nextFd then some ⟨x, true, o.write⟩ else k.fds d
        nextFd := k.nextFd + 1
        tick := k.tick + 1
        log := ⟨.open path, .ok k.nextFd⟩ :: k.log })
      (others : ∀ o', o' ≠ x → k'.size o' = k.size o' ∧ k'.data o' = k.data o')
      (keep : o.truncate = false → k'.size = k.size ∧ k'.data = k.data)
      (trunc : o.truncate = true → k'.size x = 0) :
      OpenOutcome tab k o path k' (.ok k.nextFd)
  /-- a new file -/
  | created (name : k.names path = none) (asks : o.create = true ∨ o.createNew = true)
      (write : o.write = true) :
      OpenOutcome tab k o path { k with
        data := fun x i => if x = k.fresh then 0 else k.data x i
        size := fun x => if x = k.fresh then 0 else k.size x
        fresh := k.fresh + 1
        names := fun n => if n = path then some k.fresh else k.names n
        fds := fun d => if d = k.nextFd then some ⟨k.fresh, true, o.write⟩ else k.fds d
        nextFd := k.nextFd + 1
        tick := k.tick + 1
        log := ⟨.open path, .ok k.nextFd⟩ :: k.log } (.ok k.nextFd)

theorem open_outcome (tab : SysTable) (k : Kernel) (o : OpenOptions) (path : String) :
    OpenOutcome tab k o path (o.open tab k path).1 (o.open tab k path).2 := by
  unfold OpenOptions.open
  by_cases h1 : (!o.write && (o.truncate || o.create || o.createNew)) = true
  · rw [if_pos h1]
    simp only [Bool.and_eq_true, Bool.not_eq_true', Bool.or_eq_true] at h1
    exact .refused h1.1 (by rcases h1.2 with (h | h) | h; exact .inl h; exact .inr (.inl h); exact .inr (.inr h))
  · rw [if_neg h1]
    have hw : o.truncate = true ∨ o.create = true ∨ o.createNew = true → o.write = true := by
      intro h
      cases hw : o.write with
      | true => rfl
      | false =>
        rw [hw] at h1
        rcases h with h | h | h <;> simp [h] at h1
    have fail : ∀ w c x tr e, k.openCore path w c x tr = (k.tock, .error e) →
        ioErr tab (k.openFile path w c x tr) =
          ({ k with tick := k.tick + 1, log := ⟨.open path, .error e⟩ :: k.log },
            .error ⟨tab.kindOf (.os e), some e, tab.msgOf (.os e)⟩) := by
      intro w c x tr e he
      simp only [openFile, record, he, ioErr]
      rfl
    cases hc : k.now.ok with
    | false =>
      have h2 : ∀ w c x tr, k.openCore path w c x tr = (k.tock, .error k.now.errno) := by
        intro w c x tr; simp [openCore, hc]
      by_cases h3 : o.createNew = true
      · rw [if_pos h3, fail _ _ _ _ _ (h2 _ _ _ _)]; exact .failed _ hw
      · rw [if_neg h3, fail _ _ _ _ _ (h2 _ _ _ _)]; exact .failed _ hw
    | true =>
      cases hn : k.names path with
      | none =>
        have h2 : ∀ w x tr, ioErr tab (k.openFile path w true x tr) = ({ k with
            data := fun x i => if x = k.fresh then 0 else k.data x i
            size := fun x => if x = k.fresh then 0 else k.size x
            fresh := k.fresh + 1
            names := fun n => if n = path then some k.fresh else k.names n
            fds := fun d => if d = k.nextFd then some ⟨k.fresh, true, w⟩ else k.fds d
            nextFd := k.nextFd + 1
            tick := k.tick + 1
            log := ⟨.open path, .ok k.nextFd⟩ :: k.log }, .ok k.nextFd) := by
          intro w x tr
          simp [openFile, record, openCore, hc, tock, hn, addFd, newFile, newObj, ioErr, Except.map]
          exact ⟨rfl, rfl, rfl⟩
        by_cases h3 : o.createNew = true
        · rw [if_pos h3, h2]; exact .created hn (.inr h3) (hw (.inr (.inr h3)))
        · rw [if_neg h3]
          cases h4 : o.create with
          | true => rw [h2]; exact .created hn (.inl h4) (hw (.inr (.inl h4)))
          | false =>
            rw [fail _ _ _ _ ENOENT (by simp [openCore, hc, tock, hn])]; exact .failed _ hw
      | some x =>
        by_cases h3 : o.createNew = true
        · rw [if_pos h3, fail _ _ _ _ EEXIST (by simp [openCore, hc, tock, hn])]; exact .failed _ hw
        · rw [if_neg h3]
          have h3' : o.createNew = false := by simpa using h3
          cases h4 : o.truncate with
          | true =>
            have : ioErr tab (k.openFile path o.write o.create false true) = ({ k with
                size := fun o' => if o' = x then 0 else k.size o'
                data := fun o' i => if o' = x ∧ (0 ≤ i ∨ k.size x ≤ i) then 0 else k.data o' i
                fds := fun d => if d = k.nextFd then some ⟨x, true, o.write⟩ else k.fds d
                nextFd := k.nextFd + 1
                tick := k.tick + 1
                log := ⟨.open path, .ok k.nextFd⟩ :: k.log }, .ok k.nextFd) := by
              simp [openFile, record, openCore, hc, tock, hn, addFd, resizeObj, ioErr, Except.map]
            rw [this]
            refine .existing _ x hn h3' hw rfl ?_ ?_ ?_
            · intro o' ho
              exact ⟨if_neg ho, funext fun i => if_neg (fun h => ho h.1)⟩
            · intro h; rw [h4] at h; cases h
            · intro _; exact if_pos rfl
          | false =>
            have : ioErr tab (k.openFile path o.write o.create false false) = ({ k with
                fds := fun d => if d = k.nextFd then some ⟨x, true, o.write⟩ else k.fds d
                nextFd := k.nextFd + 1
                tick := k.tick + 1
                log := ⟨.open path, .ok k.nextFd⟩ :: k.log }, .ok k.nextFd) := by
              simp [openFile, record, openCore, hc, tock, hn, addFd, ioErr, Except.map]
              rfl
            rw [this]
            refine .existing _ x hn h3' hw rfl
              (fun o' _ => ⟨rfl, rfl⟩) (fun _ => ⟨rfl, rfl⟩) ?_
            intro h; rw [h4] at h; cases h

/-- Opening keeps the kernel consistent and, on success, hands out an unused descriptor for the
named file. -/
theorem OpenOutcome.wf {tab : SysTable} {t : Target} {k k' : Kernel} {o path r} (w : Wf t k)
    (h : OpenOutcome tab k o path k' r) : Wf t k' := by
  have addfd : ∀ (k2 : Kernel) (x : Obj), Wf t k2 → x < k2.fresh →
      (∀ p e c, k2.pt p = some e → e.copy = some c → x ≠ c) →
      ∀ k3 : Kernel, k3.page = k2.page → k3.pt = k2.pt → k3.names = k2.names →
      k3.fresh = k2.fresh → k3.nextFd = k2.nextFd + 1 → (∃ wr, k3.fds = fun d =>
        if d = k2.nextFd then some ⟨x, true, wr⟩ else k2.fds d) → Wf t k3 := by
    intro k2 x w2 hx hne k3 e1 e2 e3 e4 e5 e6
    obtain ⟨wr, e6⟩ := e6
    have key : ∀ d f, k3.fds d = some f → (k2.fds d = some f) ∨ (d = k2.nextFd ∧ f.obj = x) := by
      intro d f hd
      rw [e6] at hd
      dsimp only at hd
      split at hd
      · rename_i e; injection hd with hd; subst hd; exact .inr ⟨e, rfl⟩
      · exact .inl hd
    constructor
    · rw [e1]; exact w2.page
    · rw [e1, e2]; exact w2.addr
    · rw [e2, e4]; exact w2.objs
    · intro d f hd
      rcases key d f hd with h1 | ⟨h1, h2⟩
      · have := w2.fds d f h1; omega
      · omega
    · rw [e3, e4]; exact w2.names
    · rw [e2, e3]
      intro p e c he hc
      obtain ⟨g1, g2, g3⟩ := w2.excl p e c he hc
      refine ⟨g1, ?_, g3⟩
      intro d f hd
      rcases key d f hd with h1 | ⟨-, h2⟩
      · exact g2 d f h1
      · rw [h2]; exact hne p e c he hc
    · rw [e2]; exact w2.shared
  cases h with
  | refused => exact w
  | failed e _ => exact w.same rfl rfl rfl rfl rfl rfl
  | existing _ x name new writable state others keep trunc =>
    refine addfd k x w (w.names path x name)
      (fun p e c he hc => (w.excl p e c he hc).2.2 path x name) k'
      ?_ ?_ ?_ ?_ ?_ ⟨o.write, ?_⟩ <;> rw [state]
  | created name asks write =>
    let k2 : Kernel := { k with
        data := fun x i => if x = k.fresh then 0 else k.data x i
        size := fun x => if x = k.fresh then 0 else k.size x
        fresh := k.fresh + 1
        names := fun n => if n = path then some k.fresh else k.names n }
    have w2 : Wf t k2 := by
      have key : ∀ n x, k2.names n = some x → k.names n = some x ∨ x = k.fresh := by
        intro n x hn
        simp only [k2] at hn
        split at hn
        · injection hn with hn; exact .inr hn.symm
        · exact .inl hn
      constructor
      · exact w.page
      · exact w.addr
      · intro p e he
        have := w.objs p e he
        exact ⟨Nat.lt_succ_of_lt this.1, fun c hc => Nat.lt_succ_of_lt (this.2 c hc)⟩
      · intro d f hd
        have := w.fds d f hd
        exact ⟨Nat.lt_succ_of_lt this.1, this.2⟩
      · intro n x hn
        rcases key n x hn with h | h
        · exact Nat.lt_succ_of_lt (w.names n x h)
        · rw [h]; exact Nat.lt_succ_self _
      · intro p e c he hc
        obtain ⟨g1, g2, g3⟩ := w.excl p e c he hc
        refine ⟨g1, g2, ?_⟩
        intro n x hn
        rcases key n x hn with h | h
        · exact g3 n x h
        · rw [h]; exact w.fresh_ne p e c he hc
      · exact w.shared
    exact addfd k2 k.fresh w2 (Nat.lt_succ_self _) (fun p e c he hc => w.fresh_ne p e c he hc) _
      rfl rfl rfl rfl rfl ⟨o.write, rfl⟩

end Vmap
