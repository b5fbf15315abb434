import Verif.Proofs.WinWorld
/- Helper lemmas: what each step of a program does to a Windows process. -/
namespace Vmap
open Spec

/-- Memory and copies keep their contents, and no file becomes shorter than the first `k` bytes of a
section that there is a view of. -/
structure WinCalm (s s' : Vmap.Win) : Prop where
  next : s.next ≤ s'.next
  old : ∀ id, id < s.next → s'.bytes.mem id = s.bytes.mem id ∧ s'.bytes.own id = s.bytes.own id
  long : ∀ v, v ∈ s.views → ∀ f, v.sec.file = some f → ∀ k, k ≤ v.sec.size →
    (∀ n, s.files f = some n → k ≤ n) → ∀ n, s'.files f = some n → k ≤ n

theorem WinCalm.refl (s : Vmap.Win) : WinCalm s s :=
  ⟨Nat.le_refl _, fun _ _ => ⟨rfl, rfl⟩, fun _ _ _ _ _ _ h => h⟩

theorem WinCalm.trans {a b c : Vmap.Win} (h : WinCalm a b) (views : b.views = a.views) (g : WinCalm b c) :
    WinCalm a c := by
  refine ⟨Nat.le_trans h.next g.next, fun id hid => ?_, fun v hv f hf k hk hl =>
    g.long v (by rw [views]; exact hv) f hf k hk (h.long v hv f hf k hk hl)⟩
  obtain ⟨a1, a2⟩ := h.old id hid
  obtain ⟨b1, b2⟩ := g.old id (by have := h.next; omega)
  exact ⟨b1.trans a1, b2.trans a2⟩

theorem WinCalm.eq {s s' : Vmap.Win} (next : s'.next = s.next) (mem : s'.bytes.mem = s.bytes.mem)
    (own : s'.bytes.own = s.bytes.own) (files : s'.files = s.files) : WinCalm s s' :=
  ⟨by omega, fun _ _ => ⟨by rw [mem], by rw [own]⟩, fun _ _ _ _ _ _ h => by rw [files]; exact h⟩

theorem _root_.Vmap.Spec.WinRest.calm {s s' : Vmap.Win} (h : WinRest s s') : WinCalm s s' :=
  ⟨h.bytes.next, h.bytes.old, fun _ _ _ _ _ _ g => by rw [h.files]; exact g⟩

/-- Only files, the record of calls and the number of calls differ. -/
structure WinQuiet (s s' : Vmap.Win) : Prop where
  keeps : WinKeeps s s'
  views : s'.views = s.views
  next : s'.next = s.next
  calm : WinCalm s s'

theorem WinQuiet.refl (s : Vmap.Win) : WinQuiet s s := ⟨.refl _, rfl, rfl, .refl _⟩

theorem WinQuiet.trans {a b c : Vmap.Win} (h : WinQuiet a b) (g : WinQuiet b c) : WinQuiet a c :=
  ⟨h.keeps.trans g.keeps, g.views.trans h.views, g.next.trans h.next, h.calm.trans h.views g.calm⟩

theorem WinQuiet.wf {t : Target} {s s' : Vmap.Win} (q : WinQuiet s s') (w : WinWf t s) : WinWf t s' :=
  ⟨by rw [q.keeps.page, q.keeps.gran]; exact w.sizes, by rw [q.views, q.next]; exact w.views,
    by rw [q.keeps.reserved]; exact w.reserved, by rw [q.keeps.handles, q.next]; exact w.handles⟩

theorem WinQuiet.laid {t : Target} {s s' : Vmap.Win} (q : WinQuiet s s') (l : WinLaid t s) : WinLaid t s' :=
  l.sub q.keeps (by rw [q.views]; exact List.Sublist.refl _)

theorem WinQuiet.did (s : Vmap.Win) (c : WinCall) : WinQuiet s (s.did c) :=
  ⟨⟨rfl, rfl, rfl, rfl⟩, rfl, rfl, .eq rfl rfl rfl rfl⟩

/-- Only the record of calls and the number of calls differ. -/
structure WinStill (s s' : Vmap.Win) : Prop where
  quiet : WinQuiet s s'
  files : s'.files = s.files
  bytes : s'.bytes = s.bytes

theorem WinStill.refl (s : Vmap.Win) : WinStill s s := ⟨.refl _, rfl, rfl⟩

theorem WinStill.trans {a b c : Vmap.Win} (h : WinStill a b) (g : WinStill b c) : WinStill a c :=
  ⟨h.quiet.trans g.quiet, g.files.trans h.files, g.bytes.trans h.bytes⟩

theorem WinStill.did (s : Vmap.Win) (c : WinCall) : WinStill s (s.did c) := ⟨.did _ _, rfl, rfl⟩

theorem WinStill.simple (s : Vmap.Win) (c : WinCall) : WinStill s (s.simple c).1 := .did s c

theorem win_wrap_fst (op : Operation) (r : Vmap.Win × Except Nat Unit) : (Win.wrap op r).1 = r.1 := by
  obtain ⟨s, r⟩ := r
  cases r <;> rfl

theorem WinStill.flush (s : Vmap.Win) (pg file len : Nat) (mode : FlushMode) :
    WinStill s (s.flush pg file len mode).1 := by
  unfold Win.flush
  have h := WinStill.simple s (.flushViewOfFile pg len)
  revert h
  generalize s.simple (.flushViewOfFile pg len) = x
  obtain ⟨s1, r1⟩ := x
  intro h
  cases r1 with
  | error e => exact h
  | ok u =>
    cases mode with
    | async => exact h
    | sync =>
      show WinStill s (Win.wrap .flush (s1.simple (.flushFileBuffers file))).1
      rw [win_wrap_fst]
      exact h.trans (.simple _ _)

theorem WinStill.protect (s : Vmap.Win) (pg len : Nat) (prot : Protect) :
    WinStill s (s.protect pg len prot).1 := by
  rw [Win.protect, win_wrap_fst, Win.virtualProtect]
  split <;> exact .did _ _

theorem WinStill.lock (s : Vmap.Win) (pg len : Nat) : WinStill s (s.lock pg len).1 := by
  rw [Win.lock, win_wrap_fst, Win.virtualLock]
  split
  · exact ⟨⟨⟨rfl, rfl, rfl, rfl⟩, rfl, rfl, .eq rfl rfl rfl rfl⟩, rfl, rfl⟩
  · exact .did _ _

theorem WinStill.unlock (s : Vmap.Win) (pg len : Nat) : WinStill s (s.unlock pg len).1 := by
  rw [Win.unlock, win_wrap_fst, Win.virtualUnlock]
  split
  · exact ⟨⟨⟨rfl, rfl, rfl, rfl⟩, rfl, rfl, .eq rfl rfl rfl rfl⟩, rfl, rfl⟩
  · exact .did _ _

/-- A call on a map that makes only calls that change nothing but the record changes nothing else. -/
theorem win_onMap_still {α : Type} {w w' : WinWorld} {i : Nat} {f : MapMut → Exec (Vmap.Win × α)}
    (still : ∀ m s r, f m = .ok (s, r) → WinStill w.s s) (h : w.onMap i f = .ok w') :
    WinStill w.s w'.s ∧ w' = w.run w'.s := by
  unfold WinWorld.onMap at h
  split at h
  · rename_i m hm
    cases hf : f m with
    | error e => rw [hf] at h; cases h
    | ok x =>
      rw [hf] at h
      obtain ⟨s, r⟩ := x
      cases h
      exact ⟨still m s r hf, rfl⟩
  · cases h
    exact ⟨.refl _, rfl⟩

/-- The shape of the range calls. -/
theorem win_range_still {t : Target} {s s' : Vmap.Win} {m : MapMut} {off len : Nat} {op : Operation}
    {g : Nat → Nat → Vmap.Win × Result Unit} (hg : ∀ a b, WinStill s (g a b).1) {r : Result Unit}
    (h : (do
      let sum ← addU t off len
      if sum > m.len then return (s, .error (Error.input op .invalidRange))
      else
        let (ptr, len) ← s.sizePage.bounds t (ptrAdd t m.ptr off) len
        return g ptr len : Exec (Vmap.Win × Result Unit)) = .ok (s', r)) : WinStill s s' := by
  cases h1 : addU t off len with
  | error e => rw [h1] at h; cases h
  | ok sum =>
    rw [h1] at h
    simp only [bind, Except.bind] at h
    split at h
    · cases h; exact .refl _
    · split at h
      · cases h
      · rename_i x hx
        obtain ⟨a, b⟩ := x
        simp only [pure, Except.pure] at h
        injection h with h
        have := hg a b
        rw [h] at this
        exact this

theorem win_convert_still {α : Type} {t : Target} {s s' : Vmap.Win} {m : MapMut} {f : Nat → Nat → Exec (Vmap.Win × α)}
    (hf : ∀ a b s' r, f a b = .ok (s', r) → WinStill s s') {r : α}
    (h : (do
      let (ptr, len) ← s.sizePage.bounds t m.ptr m.len
      f ptr len : Exec (Vmap.Win × α)) = .ok (s', r)) : WinStill s s' := by
  simp only [bind, Except.bind] at h
  split at h
  · cases h
  · rename_i x hx
    obtain ⟨a, b⟩ := x
    exact hf a b s' r h

theorem win_intoMap_still {t : Target} {s s' : Vmap.Win} {m : MapMut} {r : ConvertResult Map MapMut}
    (h : s.intoMap t m = .ok (s', r)) : WinStill s s' := by
  refine win_convert_still (α := ConvertResult Map MapMut) (f := fun ptr len => match s.protect ptr len .readWrite with
    | (s, .ok ()) => return (s, .ok ⟨m⟩)
    | (s, .error err) => return (s, .error (err, m))) ?_ h
  intro a b s' r h
  have := WinStill.protect s a b .readWrite
  revert h this
  generalize s.protect a b .readWrite = x
  obtain ⟨s1, r1⟩ := x
  intro h this
  cases r1 <;> (cases h; exact this)

theorem win_intoMapMut_still {t : Target} {s s' : Vmap.Win} {m : Map} {r : ConvertResult MapMut Map}
    (h : s.intoMapMut t m = .ok (s', r)) : WinStill s s' := by
  refine win_convert_still (α := ConvertResult MapMut Map) (m := m.inner) (f := fun ptr len => match s.protect ptr len .readWrite with
    | (s, .ok ()) => return (s, .ok m.inner)
    | (s, .error err) => return (s, .error (err, m))) ?_ h
  intro a b s' r h
  have := WinStill.protect s a b .readWrite
  revert h this
  generalize s.protect a b .readWrite = x
  obtain ⟨s1, r1⟩ := x
  intro h this
  cases r1 <;> (cases h; exact this)

/-! ### `map_if` -/

/-- What asking for the length does. -/
theorem winFileLen_cases (tab : SysTable) (s : Vmap.Win) (file : Nat) :
    (∃ s1 code, s.fileLen tab file = (s1, .error (SysError.toIo tab (.os code))) ∧ WinQuiet s s1 ∧
      s1.files = s.files ∧ s1.bytes.file = s.bytes.file) ∨
    ∃ s1 n, s.fileLen tab file = (s1, .ok n) ∧ s.files file = some n ∧ WinQuiet s s1 ∧ s1.files = s.files ∧
      s1.bytes.file = s.bytes.file := by
  unfold Win.fileLen
  cases h : s.files file with
  | none => exact .inl ⟨_, _, rfl, .did _ _, rfl, rfl⟩
  | some n =>
    cases hc : s.choice.ok with
    | true => exact .inr ⟨s.did (.getFileInfo file), n, rfl, rfl, .did _ _, rfl, rfl⟩
    | false => exact .inl ⟨s.did (.getFileInfo file), s.choice.code, rfl, .did _ _, rfl, rfl⟩

/-- How the outcome of setting the length of a file is described: it became `n` bytes, of which the
first `c` are as they were and the others zero; other files kept theirs. -/
structure FileNow (s s' : Vmap.Win) (file c n : Nat) : Prop where
  len : s'.files file = some n
  lens : ∀ f, f ≠ file → s'.files f = s.files f
  bytes : ∀ i, i < n → s'.bytes.file file i = if i < c then s.bytes.file file i else 0
  others : ∀ f, f ≠ file → s'.bytes.file f = s.bytes.file f

/-- Setting the length again. -/
theorem FileNow.again {s s1 s2 : Vmap.Win} {file c n k : Nat} (h : FileNow s s1 file c n) (hc : c = n)
    (g : FileNow s1 s2 file n k) : FileNow s s2 file c k := by
  refine ⟨g.len, fun f hf => (g.lens f hf).trans (h.lens f hf), fun i hi => ?_,
    fun f hf => (g.others f hf).trans (h.others f hf)⟩
  rw [g.bytes i hi, hc]
  by_cases hn : i < n
  · rw [if_pos hn, if_pos hn, h.bytes i hn, hc, if_pos hn]
  · rw [if_neg hn, if_neg hn]

/-- What setting the length does. -/
theorem win_resizeFile_cases (tab : SysTable) (s : Vmap.Win) (file : Nat) {sz : Nat} (hs : sz < lim64) :
    (∃ s1 code, s.resizeFile tab file sz = (s1, .error (Options.mapFileErr (SysError.toIo tab (.os code)))) ∧
      WinQuiet s s1 ∧ s1.files = s.files ∧ s1.bytes.file = s.bytes.file) ∨
    ∃ s1, s.resizeFile tab file sz = (s1, .ok sz) ∧ WinQuiet s s1 ∧
      ∀ n, s.files file = some n → FileNow s s1 file n sz := by
  have h64 : asU64 sz = sz := Nat.mod_eq_of_lt hs
  unfold Win.resizeFile Win.setLen
  rw [h64]
  split
  · rename_i heq
    split at heq
    · rename_i hc
      cases heq
      refine .inr ⟨_, rfl, ⟨⟨rfl, rfl, rfl, rfl⟩, rfl, rfl, Nat.le_refl _, fun _ _ => ⟨rfl, rfl⟩, ?_⟩, ?_⟩
      · intro v hv f hf k hk hl n hn
        simp only [] at hn
        by_cases h : f = file
        · rw [if_pos h] at hn
          injection hn with hn
          have := List.all_eq_true.mp hc.2.2.2 v hv
          simp only [decide_eq_true_eq] at this
          have := this (by rw [hf, h])
          omega
        · rw [if_neg h] at hn
          exact hl n hn
      · intro n hn
        refine ⟨by simp, fun f hf => by simp [hf], fun i hi => ?_, fun f hf => ?_⟩
        · simp only [WinBytes.resize, hn, Option.getD_some, true_and]
          by_cases h : i < n
          · rw [if_neg (by omega), if_pos h]
          · rw [if_pos (by omega), if_neg h]
        · funext i
          simp [WinBytes.resize, hf]
    · cases heq
  · rename_i heq
    split at heq
    · cases heq
    · cases heq
      exact .inl ⟨_, _, rfl, .did _ _, rfl, rfl⟩

/-- `map_if` up to where the file has its length. -/
inductive WinSized (tab : SysTable) (t : Target) (s : Vmap.Win) (o : Options) (file : Nat) : Prop
  | fail (s1 : Vmap.Win) (code : Nat)
      (eq : s.mapIf tab t o file = .ok (s1, .error (Options.mapFileErr (SysError.toIo tab (.os code)))))
      (quiet : WinQuiet s s1)
      (files : (s1.files = s.files ∧ s1.bytes.file = s.bytes.file) ∨ (o.truncate = true ∧ FileNow s s1 file 0 0))
  | sized (s1 : Vmap.Win) (n : Nat) (was : s.files file = some n)
      (eq : s.mapIf tab t o file = s1.mapStep t o file (newLen o.truncate o.resize (n % t.lim)))
      (quiet : WinQuiet s s1)
      (files : FileNow s s1 file (cutLen o.truncate n (n % t.lim)) (leftLen o.truncate o.resize n (n % t.lim)))
      (fits : newLen o.truncate o.resize (n % t.lim) < t.lim)

theorem win_mapIf_sized (tab : SysTable) {t : Target} (s : Vmap.Win) {o : Options} (hf : Fits t o) (file : Nat) :
    WinSized tab t s o file := by
  have h64 := t.lim_le_64
  have hpos := t.lim_pos
  rcases winFileLen_cases tab s file with ⟨s1, code, h1, q1, f1⟩ | ⟨s1, n, h1, hn, q1, f1, b1⟩
  · exact .fail s1 code (by simp only [Win.mapIf, h1]; rfl) q1 (.inl f1)
  have hm : n % t.lim < t.lim := Nat.mod_lt _ hpos
  have hsame : FileNow s s1 file n n := ⟨by rw [f1]; exact hn, fun f _ => by rw [f1],
    fun i hi => by rw [if_pos hi, b1], fun f _ => by rw [b1]⟩
  -- truncation
  have trunc : (∃ s2 code, s1.truncateStep tab o file (n % t.lim) =
        (s2, .error (Options.mapFileErr (SysError.toIo tab (.os code)))) ∧ WinQuiet s s2 ∧ s2.files = s.files ∧
        s2.bytes.file = s.bytes.file) ∨
      ∃ s2, s1.truncateStep tab o file (n % t.lim) = (s2, .ok (if o.truncate then 0 else n % t.lim)) ∧
        WinQuiet s s2 ∧ FileNow s s2 file (cutLen o.truncate n (n % t.lim)) (cutLen o.truncate n (n % t.lim)) ∧
        ((s2.files = s.files ∧ s2.bytes.file = s.bytes.file) ∨ (o.truncate = true ∧ FileNow s s2 file 0 0)) := by
    unfold Win.truncateStep cutLen
    cases htr : o.truncate with
    | false =>
      exact .inr ⟨s1, rfl, q1, by simpa using hsame, .inl ⟨f1, b1⟩⟩
    | true =>
      by_cases h0 : n % t.lim > 0
      · simp only [h0, decide_true, Bool.true_and, if_true, and_self]
        rcases win_resizeFile_cases tab s1 file (sz := 0) (Nat.lt_of_lt_of_le hpos h64) with ⟨s2, c, a1, a2, a3, a4⟩ | ⟨s2, a1, a2, a3⟩
        · exact .inl ⟨s2, c, a1, q1.trans a2, a3.trans f1, a4.trans b1⟩
        · have h3 := hsame.again rfl (a3 n hsame.len)
          have h4 : FileNow s s2 file 0 0 := ⟨h3.len, h3.lens, fun i hi => by omega, h3.others⟩
          exact .inr ⟨s2, a1, q1.trans a2, h4, .inr ⟨trivial, h4⟩⟩
      · have hz : n % t.lim = 0 := by omega
        have hno : ¬ (True ∧ n % t.lim > 0) := fun h => h0 h.2
        rw [if_neg (by simp [hz])]
        simp only [if_neg hno, if_true]
        rw [hz]
        exact .inr ⟨s1, rfl, q1, hsame, .inl ⟨f1, b1⟩⟩
  have hus : asUsize t n = n % t.lim := rfl
  rcases trunc with ⟨s2, code, h2, q2, f2⟩ | ⟨s2, h2, q2, f2, f2'⟩
  · exact .fail s2 code (by simp only [Win.mapIf, h1, hus, h2]; rfl) q2 (.inl f2)
  generalize hcut : (if o.truncate = true then 0 else n % t.lim) = cur at h2
  have hcur : cur < t.lim := by rw [← hcut]; split <;> omega
  -- resizing
  have setTo : ∀ x, x < t.lim → s2.resizeStep tab o file cur = s2.resizeFile tab file x →
      newLen o.truncate o.resize (n % t.lim) = x → leftLen o.truncate o.resize n (n % t.lim) = x →
      WinSized tab t s o file := by
    intro x hx hstep hnew hleft
    rcases win_resizeFile_cases tab s2 file (sz := x) (by omega) with ⟨s3, c, a1, a2, a3, a4⟩ | ⟨s3, a1, a2, a3⟩
    · refine .fail s3 c (by simp only [Win.mapIf, h1, hus, h2, hstep, a1]; rfl) (q2.trans a2) ?_
      rcases f2' with ⟨h, h'⟩ | ⟨h, h'⟩
      · exact .inl ⟨a3.trans h, a4.trans h'⟩
      · exact .inr ⟨h, by rw [a3]; exact h'.len, fun f hne => by rw [a3]; exact h'.lens f hne,
          fun i hi => by omega, fun f hne => by rw [a4]; exact h'.others f hne⟩
    · refine .sized s3 n hn ?_ (q2.trans a2) ?_ (by rw [hnew]; exact hx)
      · simp only [Win.mapIf, h1, hus, h2, hstep, a1, hnew]
      · rw [hleft]
        exact f2.again rfl (a3 _ f2.len)
  have stay : s2.resizeStep tab o file cur = (s2, .ok cur) →
      newLen o.truncate o.resize (n % t.lim) = cur →
      leftLen o.truncate o.resize n (n % t.lim) = cutLen o.truncate n (n % t.lim) →
      WinSized tab t s o file := by
    intro hstep hnew hleft
    refine .sized s2 n hn ?_ q2 (by rw [hleft]; exact f2) (by rw [hnew]; exact hcur)
    simp only [Win.mapIf, h1, hus, h2, hstep, hnew]
  have hfr := hf.resize
  have unf : ∀ e, newLen o.truncate e (n % t.lim) = match e with
      | .exact n => n
      | .min x => Nat.max x cur
      | .max x => Nat.min x cur
      | .endOf => cur := by
    intro e; rw [← hcut]; rfl
  have unl : ∀ e, leftLen o.truncate e n (n % t.lim) = match e with
      | .exact x => x
      | .min x => if cur < x then x else cutLen o.truncate n (n % t.lim)
      | .max x => if x < cur then x else cutLen o.truncate n (n % t.lim)
      | .endOf => cutLen o.truncate n (n % t.lim) := by
    intro e; rw [← hcut]; rfl
  cases hr : o.resize with
  | endOf => exact stay (by simp only [Win.resizeStep, hr]) (by rw [unf, hr]) (by rw [unl, hr])
  | exact x =>
    rw [hr] at hfr
    exact setTo x hfr (by simp only [Win.resizeStep, hr]) (by rw [unf, hr]) (by rw [unl, hr])
  | min x =>
    rw [hr] at hfr
    by_cases hc : x > cur
    · exact setTo x hfr (by simp only [Win.resizeStep, hr]; rw [if_pos hc])
        (by rw [unf, hr]; exact Nat.max_eq_left (by omega)) (by rw [unl, hr]; exact if_pos hc)
    · exact stay (by simp only [Win.resizeStep, hr]; rw [if_neg hc])
        (by rw [unf, hr]; exact Nat.max_eq_right (by omega)) (by rw [unl, hr]; exact if_neg hc)
  | max x =>
    rw [hr] at hfr
    by_cases hc : x < cur
    · exact setTo x hfr (by simp only [Win.resizeStep, hr]; rw [if_pos hc])
        (by rw [unf, hr]; exact Nat.min_eq_left (by omega)) (by rw [unl, hr]; exact if_pos hc)
    · exact stay (by simp only [Win.resizeStep, hr]; rw [if_neg hc])
        (by rw [unf, hr]; exact Nat.min_eq_right (by omega)) (by rw [unl, hr]; exact if_neg hc)

/-- A map made from a state that differs quietly. -/
theorem WinMap.from {t : Target} {s s1 s' : Vmap.Win} (q : WinQuiet s s1) {m : MapMut} {file : Option Nat}
    {off : Nat} {prot : Protect} {v : WinView} (h : WinMap t s1 s' m file off prot v) :
    WinMap t s s' m file off prot v := by
  have hsh : ∀ a, winShows s1 a = winShows s a := fun a => by simp only [winShows, q.views]
  have hrp : ∀ n, s1.roundPage n = s.roundPage n := fun n => by simp only [Win.roundPage, q.keeps.page]
  refine ⟨by rw [← q.views]; exact h.views, by rw [← q.next]; exact h.sec, h.access, h.inside,
    fun i hi => by rw [← hsh]; exact h.free i hi, h.bytes, fun a ha => by rw [← hsh]; exact h.others a ha,
    by rw [← q.keeps.gran]; exact h.start, ?_, ?_, ?_⟩
  · have := h.room
    simp only [hrp, q.views] at this
    exact this
  · exact h.size
  · exact h.new

/-! ### Making and dropping -/

/-- A new map is laid out properly, and is there. -/
theorem WinMap.laid {t : Target} {s s' : Vmap.Win} (l : WinLaid t s) (keeps : WinKeeps s s') {m : MapMut}
    {file : Option Nat} {off : Nat} {prot : Protect} {v : WinView} (h : WinMap t s s' m file off prot v) :
    WinLaid t s' ∧ MapView s.gran m v := by
  have hrp : ∀ n, s'.roundPage n = s.roundPage n := fun n => by simp only [Win.roundPage, keeps.page]
  obtain ⟨i1, i2, -, i4⟩ := h.inside
  obtain ⟨r1, r2, r3⟩ := h.room
  obtain ⟨a1, a2, a3⟩ := h.start
  obtain ⟨a, b, ha, -⟩ := l.sizes
  have hpos : 0 < s.page := by rw [ha]; exact Nat.two_pow_pos a
  refine ⟨⟨by rw [keeps.page, keeps.gran]; exact l.sizes, ?_, ?_⟩, ⟨a1, i1, a2, i2⟩⟩
  · intro x hx
    rw [h.views] at hx
    rw [hrp, keeps.gran]
    rcases List.mem_cons.mp hx with rfl | hx
    · exact ⟨r1, i4, a1, a3, r2⟩
    · exact l.inside x hx
  · simp only [hrp]
    rw [h.views, List.pairwise_cons]
    exact ⟨r3, l.apart⟩

/-- Dropping a map is unmapping its view. -/
theorem win_dropMap_eq {t : Target} {s : Vmap.Win} (wf : WinWf t s) (l : WinLaid t s) {m : MapMut} (hm : 0 < m.len)
    {v : WinView} (hv : v ∈ s.views) (mv : MapView s.gran m v) :
    s.dropMap t m = .ok { s.did (.unmapViewOfFile v.base) with
      views := s.views.filter (fun x => decide (x.base ≠ v.base))
      locked := fun q => s.locked q && !s.views.any (fun x => decide (x.base = v.base) && x.onPage s.page q) } := by
  obtain ⟨a, b, hpa, hgb, hab, hbits⟩ := wf.sizes
  obtain ⟨i1, i2, i3, i4, i5⟩ := l.inside v hv
  obtain ⟨m1, m2, m3, m4⟩ := mv
  have hrl := s.roundPage_le wf.page_pos v.len
  have hge : s.gran ≤ v.base := Nat.le_of_dvd (Nat.pos_of_ne_zero i2) i3
  obtain ⟨n, hn⟩ := Win.bounds_start (t := t) (k := b) (base := v.base) (d := m.ptr - v.base) (len := m.len) (by omega)
    (by rw [← hgb]; exact Nat.mod_eq_zero_of_dvd i3) (by rw [← hgb]; omega) (by rw [← hgb]; omega)
  have hsz : s.sizeAlloc = Size.withSize (2 ^ b) := by rw [Win.sizeAlloc, Win.systemInfo, ← hgb]
  rw [show v.base + (m.ptr - v.base) = m.ptr by omega] at hn
  have hun : s.unmapViewOfFile v.base = ({ s.did (.unmapViewOfFile v.base) with
      views := s.views.filter (fun x => decide (x.base ≠ v.base))
      locked := fun q => s.locked q && !s.views.any (fun x => decide (x.base = v.base) && x.onPage s.page q) },
      .ok ()) := if_pos (List.any_eq_true.mpr ⟨v, hv, by simp⟩)
  simp only [Win.dropMap, if_pos hm, hsz, hn, bind, Except.bind, Win.unmap, hun, pure, Except.pure]

/-- Dropping a map removes its view. -/
theorem win_dropMap_view {t : Target} {s : Vmap.Win} (wf : WinWf t s) (l : WinLaid t s) {m : MapMut} (hm : 0 < m.len)
    {v : WinView} (hv : v ∈ s.views) (mv : MapView s.gran m v) : ∃ s', s.dropMap t m = .ok s' ∧
    WinKeeps s s' ∧ s'.next = s.next ∧ s'.views = s.views.filter (fun x => decide (x.base ≠ v.base)) ∧
    s'.bytes = s.bytes ∧ s'.files = s.files :=
  ⟨_, win_dropMap_eq wf l hm hv mv, ⟨rfl, rfl, rfl, rfl⟩, rfl, rfl, rfl, rfl⟩

/-- Dropping a ring removes its two views. -/
theorem win_unmapRing_views {t : Target} {s : Vmap.Win} (wf : WinWf t s) (l : WinLaid t s) {ptr len : Nat} (hl : 0 < len)
    {v1 v2 : WinView} (h1 : v1 ∈ s.views) (h2 : v2 ∈ s.views) (b1 : v1.base = ptr) (b2 : v2.base = ptr + len)
    (l2 : v2.len = len) :
    WinKeeps s (s.unmapRing t ptr len).1 ∧ (s.unmapRing t ptr len).1.next = s.next ∧
      (s.unmapRing t ptr len).1.views =
        (s.views.filter (fun x => decide (x.base ≠ ptr + len))).filter (fun x => decide (x.base ≠ ptr)) ∧
      (s.unmapRing t ptr len).1.bytes = s.bytes ∧ (s.unmapRing t ptr len).1.files = s.files ∧
      ∀ q, (s.unmapRing t ptr len).1.locked q = (s.locked q && !s.views.any (fun x =>
        decide (x.base = ptr ∨ x.base = ptr + len) && x.onPage s.page q)) := by
  obtain ⟨i1, i2, i3, i4, i5⟩ := l.inside v2 h2
  have hrl := s.roundPage_le wf.page_pos v2.len
  have hadd : ptrAdd t ptr len = ptr + len := ptrAdd_ok (by omega)
  have hu : s.unmapViewOfFile (ptr + len) = ({ s.did (.unmapViewOfFile (ptr + len)) with
      views := s.views.filter (fun x => decide (x.base ≠ ptr + len))
      locked := fun q => s.locked q && !s.views.any (fun x => decide (x.base = ptr + len) && x.onPage s.page q) },
      .ok ()) := if_pos (List.any_eq_true.mpr ⟨v2, h2, by simp [b2]⟩)
  simp only [Win.unmapRing, hadd, hu]
  simp only [Win.unmapViewOfFile]
  rw [if_pos (List.any_eq_true.mpr ⟨v1, List.mem_filter.mpr ⟨h1, by simp [b1]; omega⟩, by simp [b1]⟩)]
  refine ⟨⟨rfl, rfl, rfl, rfl⟩, rfl, rfl, rfl, rfl, fun q => ?_⟩
  show ((s.locked q && !_) && !_) = _
  rw [Bool.and_assoc, ← Bool.not_or]
  congr 2
  rw [Bool.eq_iff_iff]
  simp only [Bool.or_eq_true, List.any_eq_true, List.mem_filter, Bool.and_eq_true, decide_eq_true_eq]
  constructor
  · rintro (⟨x, hx, hb, hq⟩ | ⟨x, ⟨hx, -⟩, hb, hq⟩)
    · exact ⟨x, hx, .inr hb, hq⟩
    · exact ⟨x, hx, .inl hb, hq⟩
  · rintro ⟨x, hx, hb, hq⟩
    by_cases hb' : x.base = ptr + len
    · exact .inl ⟨x, hx, hb', hq⟩
    · exact .inr ⟨x, ⟨hx, hb'⟩, hb.resolve_right hb', hq⟩

/-- Creating a ring. -/
theorem win_mapRing_any {t : Target} {s : Vmap.Win} (wf : WinWf t s) (l : WinLaid t s) {len : Nat} (hd : s.gran ∣ len)
    (hfit : 2 * len < t.lim) :
    ∃ s' r, s.mapRing t len = .ok (s', r) ∧ WinKeeps s s' ∧ WinWf t s' ∧
      (∀ pg, r = .ok pg → WinLaid t s' ∧ ∃ v1 v2, s'.views = v2 :: v1 :: s.views ∧ v1.base = pg ∧
        v2.base = pg + len ∧ v1.len = len ∧ v2.len = len ∧ 0 < len ∧ v1.sec = v2.sec ∧ v1.off = 0 ∧
        v2.off = 0 ∧ v1.access = { read := true, write := true } ∧ v2.access = { read := true, write := true } ∧
        s.next ≤ v1.sec.id) ∧
      (∀ e, r = .error e → s'.views = s.views) ∧ WinRest s s' := by
  by_cases hl : 0 < len
  · obtain ⟨s', r, h1, h2, h3, -, h4, h5⟩ := C31_map_ring t wf hl hfit
    refine ⟨s', r, h1, WinRest.keeps h2, h3, ?_, fun e he => (h5 e he).1, h2⟩
    intro pg hpg
    obtain ⟨hr, -⟩ := h4 pg hpg
    have hlaid := WinLaid.ring l hl hd hr h2
    obtain ⟨v1, v2, hv, c1, c2, b1, b2, l1, l2, o1, o2, hsec, -⟩ := hr.access
    obtain ⟨id, hid, hs⟩ := hr.ring
    refine ⟨hlaid, v1, v2, hv, b1, b2, l1, l2, hl, hsec, o1, o2, c1, c2, ?_⟩
    obtain ⟨hn, hsh⟩ := hs 0 (by omega)
    obtain ⟨v, hmem, k1, k2, k3, -⟩ := winShows_some hsh
    rw [hv] at hmem
    simp only [List.mem_cons] at hmem
    rcases hmem with rfl | rfl | hm
    · omega
    · omega
    · exact absurd ⟨k1, k2⟩ (winShows_none hn hm)
  · have h0 : len = 0 := by omega
    subst h0
    refine ⟨s.did (.createFileMapping none .readwrite 0 0), .error (Error.lastOsError .ringAllocate s.choice.code),
      ?_, ⟨rfl, rfl, rfl, rfl⟩, (WinQuiet.did _ _).wf wf, fun _ h => (nomatch h), fun _ _ => rfl,
      ⟨rfl, rfl, rfl, rfl, rfl, .eq rfl rfl⟩⟩
    have hm : mulU t 2 0 = .ok 0 := mulU_ok (by simpa using hfit)
    simp only [Win.mapRing, hm, bind, Except.bind, Win.handleNew, Win.hi32_eq t.lim_pos, Win.createFileMapping,
      Win.lo32_eq]
    rw [if_neg (by rintro ⟨-, h⟩; exact h rfl)]
    rfl

/-! ### Steps -/

theorem win_dropMap_inv {t : Target} {s0 : Vmap.Win} {w : WinWorld} (inv : WinInv t s0 w) {i : Nat} {m : MapMut}
    (hi : w.held i = some (.map m)) {s' : Vmap.Win} (h : w.s.dropMap t m = .ok s') :
    WinNext t s0 w { w.upd s' i none with empties := if m.len = 0 then m :: w.empties else w.empties } := by
  by_cases hm : m.len = 0
  · simp only [Win.dropMap, hm, Nat.lt_irrefl, gt_iff_lt, if_false, pure, Except.pure] at h
    cases h
    simp only [hm, if_true]
    exact inv.abandon' hi hm
  · simp only [if_neg hm]
    obtain ⟨v, hv, mv⟩ := inv.there i _ hi
    rw [← inv.keeps.gran] at mv
    obtain ⟨s1, k0, k1, k2, k3, -⟩ := win_dropMap_view inv.wf inv.laid (Nat.pos_of_ne_zero hm) hv mv
    rw [h] at k0
    cases k0
    have hmem : ∀ x, x ∈ s'.views ↔ x ∈ w.s.views ∧ x.base ≠ v.base := by
      intro x; rw [k3, List.mem_filter, decide_eq_true_eq]
    refine inv.remove' ?_ k1 hi (by rw [k3]; exact List.filter_sublist) ?_
    · refine ⟨by rw [k1.page, k1.gran]; exact inv.wf.sizes, ?_, by rw [k1.reserved]; exact inv.wf.reserved,
        by rw [k1.handles, k2]; exact inv.wf.handles⟩
      intro x hx
      rw [k2]
      exact inv.wf.views x ((hmem x).mp hx).1
    · intro x
      rw [hmem]
      refine and_congr_right fun hx => not_congr ⟨fun hb => ?_, fun ho => ?_⟩
      · rw [inv.laid.base_inj hx hv hb, ← inv.keeps.gran]; exact mv
      · rw [← inv.keeps.gran] at ho
        exact win_mapView_base ho mv

theorem win_unmapRing_inv {t : Target} {s0 : Vmap.Win} {w : WinWorld} (inv : WinInv t s0 w) {i ptr len : Nat} {g : WinHandle}
    (hi : w.held i = some g) (there : ∃ v1 v2, v1 ∈ w.s.views ∧ v2 ∈ w.s.views ∧ v1.base = ptr ∧
      v2.base = ptr + len ∧ v1.len = len ∧ v2.len = len ∧ 0 < len ∧ v1.sec = v2.sec ∧ v1.off = 0 ∧ v2.off = 0 ∧
      v1.access = { read := true, write := true } ∧ v2.access = { read := true, write := true })
    (owns : ∀ v, WinHandle.Owns s0.gran g v ↔ RingView ptr len v) :
    WinNext t s0 w (w.upd (w.s.unmapRing t ptr len).1 i none) := by
  obtain ⟨v1, v2, h1, h2, b1, b2, l1, l2, hl, -⟩ := there
  obtain ⟨k1, k2, k3, -⟩ := win_unmapRing_views inv.wf inv.laid hl h1 h2 b1 b2 l2
  have hmem : ∀ x, x ∈ (w.s.unmapRing t ptr len).1.views ↔ x ∈ w.s.views ∧ x.base ≠ ptr + len ∧ x.base ≠ ptr := by
    intro x
    rw [k3, List.mem_filter, List.mem_filter, decide_eq_true_eq, decide_eq_true_eq, and_assoc]
  refine inv.remove' ?_ k1 hi (by rw [k3]; exact List.filter_sublist.trans List.filter_sublist) ?_
  · refine ⟨by rw [k1.page, k1.gran]; exact inv.wf.sizes, ?_, by rw [k1.reserved]; exact inv.wf.reserved,
      by rw [k1.handles, k2]; exact inv.wf.handles⟩
    intro x hx
    rw [k2]
    exact inv.wf.views x ((hmem x).mp hx).1
  · intro x
    rw [hmem, owns]
    refine and_congr_right fun hx => ⟨?_, ?_⟩
    · rintro ⟨n1, n2⟩ ⟨hb | hb, -⟩
      · exact n2 hb
      · exact n1 hb
    · intro hn
      refine ⟨fun hb => hn ⟨.inr hb, ?_⟩, fun hb => hn ⟨.inl hb, ?_⟩⟩
      · rw [inv.laid.base_inj hx h2 (by omega)]; exact l2
      · rw [inv.laid.base_inj hx h1 (by omega)]; exact l1

theorem win_sameAll {w : WinWorld} (j : Nat) : (w.held j = none ∧ w.held j = none) ∨
    ∃ h h', w.held j = some h ∧ w.held j = some h' ∧ WinHandle.Same h h' := by
  cases h : w.held j with
  | none => exact .inl ⟨rfl, rfl⟩
  | some g => exact .inr ⟨g, g, rfl, rfl, Vmap.WinHandle.Same.refl g⟩

theorem WinInv.quiet {t : Target} {s0 : Vmap.Win} {w : WinWorld} (inv : WinInv t s0 w) {s' : Vmap.Win}
    (q : WinQuiet w.s s') : WinNext t s0 w (w.run s') :=
  inv.keep' (q.wf inv.wf) (q.laid inv.laid) q.keeps q.views rfl rfl win_sameAll

theorem win_mapIf_inv {tab : SysTable} {t : Target} {s0 : Vmap.Win} {w : WinWorld} (inv : WinInv t s0 w) {o : Options}
    (hf : Fits t o) (file : Nat) {s' : Vmap.Win} {r : Result (Option MapMut)}
    (h : w.s.mapIf tab t o file = .ok (s', r)) :
    (∀ m, r = .ok (some m) → WinNext t s0 w (w.put s' (.map m))) ∧
    ((∀ m, r ≠ .ok (some m)) → WinNext t s0 w (w.run s')) := by
  rcases win_mapIf_sized tab w.s hf file with ⟨s1, code, eq, q, -⟩ | ⟨s1, n, hn, eq, q, -, fits⟩
  · rw [h] at eq
    cases eq
    exact ⟨fun m hm => (nomatch hm), fun _ => inv.quiet q⟩
  · obtain ⟨s2, r2, g1, g2, g3, g4, g5, g6⟩ := C81_map_partial t (q.wf inv.wf) hf (file := file) fits
    rw [h, g1] at eq
    cases eq
    have hk : WinKeeps w.s s' := q.keeps.trans (WinRest.keeps g2)
    constructor
    · intro m hm
      obtain ⟨-, -, ⟨v, mv⟩, -⟩ := g4 m hm
      have mv' := WinMap.from q mv
      obtain ⟨a1, a2⟩ := WinMap.laid inv.laid hk mv'
      rw [inv.keeps.gran] at a2
      refine inv.add' g3 a1 hk (new := [v]) mv'.views ⟨v, List.mem_singleton.mpr rfl, a2⟩ ?_ ?_
      · intro x hx; rw [List.mem_singleton.mp hx]; exact a2
      · intro x hx; rw [List.mem_singleton.mp hx]; exact mv'.sec.1
    · intro hno
      have hv : s'.views = w.s.views := by
        cases r with
        | error e => rw [(g6 e rfl).1, q.views]
        | ok x =>
          cases x with
          | none => rw [(g5 rfl).2, q.views]
          | some m => exact absurd rfl (hno m)
      exact inv.keep' g3 (inv.laid.sub hk (hv ▸ List.Sublist.refl _ : s'.views.Sublist w.s.views)) hk hv rfl rfl win_sameAll

theorem win_alloc_inv {t : Target} {s0 : Vmap.Win} {w : WinWorld} (inv : WinInv t s0 w) {o : Options}
    (hf : WinAllocFits t w.s.gran (o.offset % w.s.page) o.len) {s' : Vmap.Win} {r : Result MapMut}
    (h : w.s.alloc t o = .ok (s', r)) :
    (∀ m, r = .ok m → WinNext t s0 w (w.put s' (.map m))) ∧ (∀ e, r = .error e → WinNext t s0 w (w.run s')) := by
  obtain ⟨s2, r2, g1, g2, g3, g4, g6⟩ := C81_alloc_partial t inv.wf hf
  rw [h] at g1
  cases g1
  have hk := WinRest.keeps g2
  constructor
  · intro m hm
    obtain ⟨-, -, ⟨v, mv⟩, -⟩ := g4 m hm
    obtain ⟨a1, a2⟩ := WinMap.laid inv.laid hk mv
    rw [inv.keeps.gran] at a2
    refine inv.add' g3 a1 hk (new := [v]) mv.views ⟨v, List.mem_singleton.mpr rfl, a2⟩ ?_ ?_
    · intro x hx; rw [List.mem_singleton.mp hx]; exact a2
    · intro x hx; rw [List.mem_singleton.mp hx]; exact mv.sec.1
  · intro e he
    have hv := (g6 e he).1
    exact inv.keep' g3 (inv.laid.sub hk (hv ▸ List.Sublist.refl _ : s'.views.Sublist w.s.views)) hk hv rfl rfl win_sameAll

theorem win_ring_fits {t : Target} {s0 : Vmap.Win} {w : WinWorld} (inv : WinInv t s0 w) {hint len : Nat}
    (hh : 2 * (hint + w.s.gran) < t.lim) (hr : w.s.sizeAlloc.round t hint = .ok len) :
    w.s.gran ∣ len ∧ 2 * len < t.lim := by
  obtain ⟨a, b, -, hb, -, hbits⟩ := inv.wf.sizes
  obtain ⟨hcap, hdvd, -⟩ := round_cases (u := w.s.gran) ⟨b, hb, by omega⟩ (show hint < t.lim by omega) hr
  refine ⟨hdvd, ?_⟩
  rcases hcap with h0 | h1
  · have := inv.wf.gran_pos; omega
  · have hp := inv.wf.gran_pos
    have h2 := h1.2.2 (w.s.gran * (hint / w.s.gran + 1)) (Nat.dvd_mul_right _ _)
      (by have := Nat.lt_mul_div_succ hint hp; omega)
    have h3 := Nat.mul_div_le hint w.s.gran
    rw [Nat.mul_add] at h2
    omega

theorem win_mapRing_rest {t : Target} {s0 : Vmap.Win} {w : WinWorld} (inv : WinInv t s0 w) {hint len : Nat}
    (hh : 2 * (hint + w.s.gran) < t.lim) (hr : w.s.sizeAlloc.round t hint = .ok len) {s' : Vmap.Win}
    {r : Result Nat} (h : w.s.mapRing t len = .ok (s', r)) : WinRest w.s s' := by
  obtain ⟨hdvd, hfit⟩ := win_ring_fits inv hh hr
  obtain ⟨s2, r2, g1, -, -, -, -, g6⟩ := win_mapRing_any inv.wf inv.laid hdvd hfit
  rw [h] at g1
  cases g1
  exact g6

theorem win_mapRing_inv {t : Target} {s0 : Vmap.Win} {w : WinWorld} (inv : WinInv t s0 w) {hint len : Nat}
    (hh : 2 * (hint + w.s.gran) < t.lim) (hr : w.s.sizeAlloc.round t hint = .ok len) {s' : Vmap.Win}
    {r : Result Nat} (h : w.s.mapRing t len = .ok (s', r)) :
    (∀ ptr g, r = .ok ptr → (∀ vs, (∃ v1 v2, v1 ∈ vs ∧ v2 ∈ vs ∧ v1.base = ptr ∧ v2.base = ptr + len ∧
        v1.len = len ∧ v2.len = len ∧ 0 < len ∧ v1.sec = v2.sec ∧ v1.off = 0 ∧ v2.off = 0 ∧
      v1.access = { read := true, write := true } ∧ v2.access = { read := true, write := true }) →
        WinHandle.There s0.gran vs g) → (∀ v, RingView ptr len v → WinHandle.Owns s0.gran g v) →
      WinNext t s0 w (w.put s' g)) ∧
    (∀ e, r = .error e → WinNext t s0 w (w.run s')) := by
  obtain ⟨hdvd, hfit⟩ := win_ring_fits inv hh hr
  obtain ⟨s2, r2, g1, g2, g3, g4, g5, -⟩ := win_mapRing_any inv.wf inv.laid hdvd hfit
  rw [h] at g1
  cases g1
  constructor
  · intro ptr g hp there owns
    obtain ⟨hlaid, v1, v2, hv, b1, b2, l1, l2, hl, hs, o1, o2, c1, c2, n1⟩ := g4 ptr hp
    refine inv.add' g3 hlaid g2 (new := [v2, v1]) hv (there _ ⟨v1, v2, by simp, by simp, b1, b2, l1, l2, hl, hs, o1, o2, c1, c2⟩) ?_ ?_
    · intro v hv
      simp only [List.mem_cons, List.not_mem_nil, or_false] at hv
      rcases hv with rfl | rfl
      · exact owns _ ⟨.inr b2, l2⟩
      · exact owns _ ⟨.inl b1, l1⟩
    · intro v hv
      simp only [List.mem_cons, List.not_mem_nil, or_false] at hv
      rcases hv with rfl | rfl
      · rw [← hs]; exact n1
      · exact n1
  · intro e he
    have hv := g5 e he
    exact inv.keep' g3 (inv.laid.sub g2 (hv ▸ List.Sublist.refl _ : s'.views.Sublist w.s.views)) g2 hv rfl rfl win_sameAll

/-- Only bytes differ. -/
def WinBare (s s' : Vmap.Win) : Prop := ∃ b, s' = { s with bytes := b }

theorem win_store_bare {s s' : Vmap.Win} {a : Nat} {b : Byte} (h : s.store a b = .ok s') : WinBare s s' := by
  unfold Win.store at h
  split at h
  · cases h
  · dsimp only at h
    split at h
    · split at h
      · cases h
      · split at h <;> (cases h; exact ⟨_, rfl⟩)
    · split at h
      · split at h
        · cases h
        · cases h; exact ⟨_, rfl⟩
      · cases h

theorem win_fill_bare (s : Vmap.Win) (ptr : Nat) (mem : Nat → Byte) : WinBare s (WinWorld.fill s ptr mem) := by
  unfold WinWorld.fill
  split
  · exact ⟨s.bytes, rfl⟩
  · exact ⟨_, rfl⟩

theorem WinInv.bare {t : Target} {s0 : Vmap.Win} {w w' : WinWorld} (inv : WinInv t s0 w) (b : WinBare w.s w'.s)
    (hn : w'.next = w.next) (he : w'.empties = w.empties)
    (hh : ∀ j, (w.held j = none ∧ w'.held j = none) ∨
      ∃ h h', w.held j = some h ∧ w'.held j = some h' ∧ WinHandle.Same h h') : WinNext t s0 w w' := by
  obtain ⟨b, hb⟩ := b
  have keeps : WinKeeps w.s w'.s := by rw [hb]; exact ⟨rfl, rfl, rfl, rfl⟩
  have views : w'.s.views = w.s.views := by rw [hb]
  refine inv.keep' ?_ (inv.laid.sub keeps (views ▸ List.Sublist.refl _)) keeps views hn he hh
  rw [hb]
  exact ⟨inv.wf.sizes, inv.wf.views, inv.wf.reserved, inv.wf.handles⟩

theorem WinInv.step {tab : SysTable} {t : Target} {s0 : Vmap.Win} {w w' : WinWorld} (inv : WinInv t s0 w) {op : WinOp}
    (sane : op.Sane t w) (h : w.step tab t op = .ok w') : WinNext t s0 w w' := by
  cases op with
  | mapIf o file =>
    simp only [WinWorld.step, bind, Except.bind] at h
    split at h
    · cases h
    rename_i x hx
    obtain ⟨s', r⟩ := x
    obtain ⟨g1, g2⟩ := win_mapIf_inv inv sane file hx
    split at h
    · rename_i h1
      cases h1
      cases h
      exact g1 _ rfl
    · rename_i h1 h2
      cases h2
      cases h
      exact g2 fun m hm => h1 m hm
  | alloc o =>
    simp only [WinWorld.step, bind, Except.bind] at h
    split at h
    · cases h
    rename_i x hx
    obtain ⟨s', r⟩ := x
    obtain ⟨g1, g2⟩ := win_alloc_inv inv sane hx
    cases r with
    | ok m => cases h; exact g1 m rfl
    | error e => cases h; exact g2 e rfl
  | newRing hint =>
    simp only [WinWorld.step, bind, Except.bind, Win.ringNew] at h
    split at h
    · cases h
    rename_i x hx
    split at hx
    · cases hx
    rename_i len hlen
    split at hx
    · cases hx
    rename_i y hy
    obtain ⟨s', r⟩ := y
    obtain ⟨g1, g2⟩ := win_mapRing_inv inv sane hlen hy
    cases r with
    | ok ptr =>
      cases hx
      cases h
      exact g1 ptr (.ring _) rfl (fun vs hvs => hvs) (fun v hv => hv)
    | error e =>
      cases hx
      cases h
      exact g2 e rfl
  | newInf hint =>
    simp only [WinWorld.step, bind, Except.bind, Win.infNew] at h
    split at h
    · cases h
    rename_i x hx
    split at hx
    · cases hx
    rename_i len hlen
    split at hx
    · cases hx
    rename_i y hy
    obtain ⟨s', r⟩ := y
    obtain ⟨g1, g2⟩ := win_mapRing_inv inv sane hlen hy
    cases r with
    | ok ptr =>
      cases hx
      cases h
      exact g1 ptr (.inf _) rfl (fun vs hvs => hvs) (fun v hv => hv)
    | error e =>
      cases hx
      cases h
      exact g2 e rfl
  | drop i =>
    simp only [WinWorld.step] at h
    split at h
    · rename_i m hm
      simp only [bind, Except.bind] at h
      split at h
      · cases h
      · rename_i s' hs
        cases h
        exact win_dropMap_inv inv hm hs
    · rename_i r hr
      cases h
      exact win_unmapRing_inv inv hr (inv.there i _ hr) (fun v => Iff.rfl)
    · rename_i r hr
      cases h
      exact win_unmapRing_inv inv hr (inv.there i _ hr) (fun v => Iff.rfl)
    · cases h; exact ⟨inv, .refl _ _⟩
  | flush i file off len mode =>
    obtain ⟨q, e⟩ := win_onMap_still (fun m s r hf => win_range_still (fun a b => WinStill.flush w.s a file b mode) hf) h
    rw [e]; exact inv.quiet q.quiet
  | advise i off len adv =>
    obtain ⟨q, e⟩ := win_onMap_still (fun m s r hf => win_range_still (g := fun a b => w.s.advise a b adv)
      (fun a b => WinStill.refl w.s) hf) h
    rw [e]; exact inv.quiet q.quiet
  | lock i off len =>
    obtain ⟨q, e⟩ := win_onMap_still (fun m s r hf => win_range_still (fun a b => WinStill.lock w.s a b) hf) h
    rw [e]; exact inv.quiet q.quiet
  | unlock i off len =>
    obtain ⟨q, e⟩ := win_onMap_still (fun m s r hf => win_range_still (fun a b => WinStill.unlock w.s a b) hf) h
    rw [e]; exact inv.quiet q.quiet
  | intoMapMut i =>
    obtain ⟨q, e⟩ := win_onMap_still (fun m s r hf => win_intoMapMut_still hf) h
    rw [e]; exact inv.quiet q.quiet
  | intoMap i =>
    obtain ⟨q, e⟩ := win_onMap_still (fun m s r hf => win_intoMap_still hf) h
    rw [e]; exact inv.quiet q.quiet
  | ringUse i rpos wpos mem =>
    simp only [WinWorld.step] at h
    split at h
    · rename_i r hr
      cases h
      refine inv.bare (win_fill_bare _ _ _) rfl rfl fun j => ?_
      simp only [WinWorld.upd]
      by_cases hj : j = i
      · subst hj
        rw [if_pos rfl]
        exact .inr ⟨_, _, hr, rfl, rfl, rfl⟩
      · rw [if_neg hj]; exact win_sameAll j
    · cases h; exact ⟨inv, .refl _ _⟩
  | infUse i rlen wpos mem =>
    simp only [WinWorld.step] at h
    split at h
    · rename_i r hr
      cases h
      refine inv.bare (win_fill_bare _ _ _) rfl rfl fun j => ?_
      simp only [WinWorld.upd]
      by_cases hj : j = i
      · subst hj
        rw [if_pos rfl]
        exact .inr ⟨_, _, hr, rfl, rfl, rfl⟩
      · rw [if_neg hj]; exact win_sameAll j
    · cases h; exact ⟨inv, .refl _ _⟩
  | set i idx b =>
    simp only [WinWorld.step] at h
    split at h
    · rename_i m hm
      simp only [bind, Except.bind] at h
      split at h
      · cases h
      · rename_i s' hs
        cases h
        unfold Win.set at hs
        split at hs
        · exact inv.bare (win_store_bare hs) rfl rfl win_sameAll
        · cases hs
    · cases h; exact ⟨inv, .refl _ _⟩
  | files f d =>
    cases h
    exact inv.keep' ⟨inv.wf.sizes, inv.wf.views, inv.wf.reserved, inv.wf.handles⟩
      (inv.laid.sub ⟨rfl, rfl, rfl, rfl⟩ (List.Sublist.refl _)) ⟨rfl, rfl, rfl, rfl⟩ rfl rfl rfl win_sameAll

theorem WinReach.inv {tab : SysTable} {t : Target} {s0 : Vmap.Win} (wf : WinWf t s0) (laid : WinLaid t s0)
    {w : WinWorld} (h : WinReach tab t s0 w) : WinInv t s0 w := by
  induction h with
  | start => exact .start wf laid
  | step _ sane step ih => exact (ih.step sane step).inv

theorem WinReach.later {tab : SysTable} {t : Target} {s0 : Vmap.Win} {w w' : WinWorld} (h : WinReach tab t s0 w)
    (l : WinLater tab t w w') : WinReach tab t s0 w' := by
  induction l with
  | refl => exact h
  | step _ sane step ih => exact .step ih sane step

end Vmap
