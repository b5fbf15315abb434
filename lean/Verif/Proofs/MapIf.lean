import Verif.Spec.Map
import Verif.Proofs.File
/- Helper lemmas: the stages of `Options::map_if`. -/
namespace Vmap
open Kernel Spec

theorem Spec.LengthCalls.append {fd : Nat} {l l' : List Event} (h : LengthCalls fd l)
    (h' : LengthCalls fd l') : LengthCalls fd (l ++ l') := by
  intro ev hev
  rcases List.mem_append.mp hev with h1 | h1
  · exact h ev h1
  · exact h' ev h1

theorem Spec.LengthCalls.nil {fd : Nat} : LengthCalls fd [] := fun _ h => by cases h

theorem Spec.LengthCalls.one_trunc {fd n r} : LengthCalls fd [⟨.ftruncate fd n, r⟩] := by
  intro ev h; rw [List.mem_singleton] at h; subst h; exact .inr ⟨n, rfl⟩

theorem Spec.LengthCalls.one_stat {fd r} : LengthCalls fd [⟨.fstat fd, r⟩] := by
  intro ev h; rw [List.mem_singleton] at h; subst h; exact .inl rfl

theorem Kernel.OnlyFile.refl (k : Kernel) (o : Obj) : OnlyFile k k o := by
  constructor <;> intros <;> rfl

theorem Kernel.OnlyFile.trans {a b c : Kernel} {o : Obj} (h : OnlyFile a b o) (h' : OnlyFile b c o) :
    OnlyFile a c o where
  page := h'.page.trans h.page
  pt := h'.pt.trans h.pt
  fds := h'.fds.trans h.fds
  names := h'.names.trans h.names
  disk := h'.disk.trans h.disk
  fresh := h'.fresh.trans h.fresh
  nextFd := h'.nextFd.trans h.nextFd
  oracle := h'.oracle.trans h.oracle
  size := fun o' ho => (h'.size o' ho).trans (h.size o' ho)
  data := fun o' ho => (h'.data o' ho).trans (h.data o' ho)

theorem Kernel.OnlyFile.wf {t : Target} {k k' : Kernel} {o : Obj} (h : OnlyFile k k' o) (w : Wf t k) :
    Wf t k' := w.same h.page h.pt h.fds h.names h.fresh h.nextFd

/-- Outcomes of one resizing. -/
theorem resizeFile_cases (tab : SysTable) {t : Target} {k : Kernel} {fd sz : Nat} {f : Fd}
    (hf : k.fds fd = some f) (hsz : sz < t.lim) :
    (∃ k1 e l, Options.resizeFile tab k fd sz = (k1, .error e) ∧ OnlyFile k k1 f.obj ∧
      k1.size f.obj = k.size f.obj ∧ k1.data f.obj = k.data f.obj ∧
      k1.log = l ++ k.log ∧ LengthCalls fd l ∧
      ((∃ errno, l = [⟨.ftruncate fd sz, .error errno⟩] ∧
        e = ⟨.io ⟨tab.kindOf (.os errno), some errno, tab.msgOf (.os errno)⟩, .mapFile⟩) ∨
       (2 ^ 63 ≤ sz ∧ l = [] ∧ ∃ msg, e = ⟨.io ⟨.invalidInput, none, msg⟩, .mapFile⟩))) ∨
    (∃ k1, Options.resizeFile tab k fd sz = (k1, .ok sz) ∧ OnlyFile k k1 f.obj ∧
      f.canWrite = true ∧
      Resized k k1 f.obj (k.size f.obj) sz ∧ sz < 2 ^ 63 ∧
      k1.log = [⟨.ftruncate fd sz, .ok 0⟩] ++ k.log) := by
  have h64 : asU64 sz = sz := by
    have := t.lim_le_64
    unfold asU64; exact Nat.mod_eq_of_lt (by omega)
  simp only [Options.resizeFile, File.setLen, h64]
  by_cases hb : lim64 / 2 ≤ sz
  · rw [if_pos hb]
    refine .inl ⟨k, _, [], rfl, OnlyFile.refl _ _, rfl, rfl, rfl, LengthCalls.nil, .inr ⟨?_, rfl, _, rfl⟩⟩
    have : lim64 / 2 = 2 ^ 63 := by decide
    omega
  · rw [if_neg hb]
    rcases ftruncate64_cases k fd sz with ⟨e, he⟩ | ⟨f', hf', hw, hlt, he⟩
    · rw [he]
      refine .inl ⟨_, _, _, rfl, ?_, rfl, rfl, rfl, LengthCalls.one_trunc, .inl ⟨e, rfl, rfl⟩⟩
      constructor <;> intros <;> rfl
    · rw [hf] at hf'
      injection hf' with hf'
      subst hf'
      rw [he]
      refine .inr ⟨_, rfl, ?_, hw, ?_, ?_, rfl⟩
      · constructor <;> intros <;> first | rfl | simp_all
      · constructor
        · simp
        · intro i h1 h2
          simp only
          rw [if_neg]
          rintro ⟨-, h | h⟩ <;> omega
        · intro i h1 h2
          simp [h2]
      · have : lim64 / 2 = 2 ^ 63 := by decide
        omega

theorem Spec.Resized.refl (k : Kernel) (o : Obj) : Resized k k o (k.size o) (k.size o) where
  size := rfl
  kept := fun _ _ _ => rfl
  zero := fun i h1 h2 => by omega

/-- Cutting to zero first, then anything: nothing is kept. -/
theorem Spec.Resized.after_zero {k k1 k2 : Kernel} {o : Obj} {n keep : Nat}
    (h1 : Resized k k1 o keep 0) (h2 : Resized k1 k2 o (k1.size o) n) : Resized k k2 o 0 n where
  size := h2.size
  kept := fun i _ h => by omega
  zero := fun i h _ => h2.zero i h (by rw [h1.size]; omega)

/-- Everything `map_if` does before it decides about the range. -/
theorem prep_cases (tab : SysTable) {t : Target} {k : Kernel} {o : Options} {fd : Nat}
    (hfit : Fits t o) (hsize : ∀ f, k.fds fd = some f → k.size f.obj < t.lim) :
    (∃ k1 e l, o.mapIf tab t k fd = .ok (k1, .error e) ∧
      k1.log = l ++ k.log ∧ LengthCalls fd l ∧ LengthError tab l o.resize e ∧
      (k.fds fd = none → OnlyFile k k1 0 ∧ k1.size = k.size ∧ k1.data = k.data) ∧
      ∀ f, k.fds fd = some f → OnlyFile k k1 f.obj ∧
        (Resized k k1 f.obj (k.size f.obj) (k.size f.obj) ∨
          (o.truncate = true ∧ k1.size f.obj = 0))) ∨
    (∃ f k1 l, k.fds fd = some f ∧
      o.mapIf tab t k fd =
        Options.mapStep t k1 o fd (newLen o.truncate o.resize (k.size f.obj)) ∧
      OnlyFile k k1 f.obj ∧
      Resized k k1 f.obj (if o.truncate then 0 else k.size f.obj)
        (newLen o.truncate o.resize (k.size f.obj)) ∧
      newLen o.truncate o.resize (k.size f.obj) < t.lim ∧
      k1.log = l ++ k.log ∧ LengthCalls fd l ∧
      ((o.truncate = false ∨ k.size f.obj = 0) →
        (∀ n, o.resize ≠ .exact n) → newLen o.truncate o.resize (k.size f.obj) = k.size f.obj →
        l = [⟨.fstat fd, .ok (k.size f.obj)⟩])) := by
  have hlp := t.lim_pos
  rcases fstat_cases k fd with ⟨e, he⟩ | ⟨f, hf, he⟩
  · refine .inl ⟨_, _, _, by simp only [Options.mapIf, File.len, ioErr, he]; rfl, rfl,
      LengthCalls.one_stat, .inl ⟨_, e, [], rfl, rfl⟩, ?_, ?_⟩
    · intro _; exact ⟨by constructor <;> intros <;> rfl, rfl, rfl⟩
    · intro f _
      exact ⟨by constructor <;> intros <;> rfl, .inl (by constructor <;> intros <;> first | rfl | (simp only at *; omega))⟩
  · have hsz := hsize f hf
    obtain ⟨k1, hk1⟩ : ∃ k1, k1 = (k.fstatLen fd).1 := ⟨_, rfl⟩
    have he' : k.fstatLen fd = (k1, .ok (k.size f.obj)) := by rw [hk1, he]
    rw [he] at hk1
    simp only at hk1
    clear he
    have he := he'
    clear he'
    have o1 : OnlyFile k k1 f.obj := by subst hk1; constructor <;> intros <;> rfl
    have s1 : k1.size = k.size := by subst hk1; rfl
    have d1 : k1.data = k.data := by subst hk1; rfl
    have l1 : k1.log = [⟨.fstat fd, .ok (k.size f.obj)⟩] ++ k.log := by subst hk1; rfl
    have r1 : Resized k k1 f.obj (k.size f.obj) (k.size f.obj) :=
      ⟨by rw [s1], fun i _ _ => by rw [d1], fun i h1 h2 => by omega⟩
    clear hk1
    have hf1 : k1.fds fd = some f := by rw [o1.fds]; exact hf
    have start : o.mapIf tab t k fd =
        (match Options.truncateStep tab k1 o fd (k.size f.obj) with
        | (k, .error e) => return (k, .error e)
        | (k, .ok flen) =>
          match Options.resizeStep tab k o fd flen with
          | (k, .error e) => return (k, .error e)
          | (k, .ok flen) => Options.mapStep t k o fd flen) := by
      have hm : asUsize t (k.size f.obj) = k.size f.obj := Nat.mod_eq_of_lt hsz
      simp only [Options.mapIf, File.len, ioErr, he, hm]
      rfl
    rw [start]
    clear start he
    -- the state after truncation
    have trunc : (∃ k2 e l, Options.truncateStep tab k1 o fd (k.size f.obj) = (k2, .error e) ∧
          k2.log = l ++ k.log ∧ LengthCalls fd l ∧ LengthError tab l o.resize e ∧
          OnlyFile k k2 f.obj ∧ Resized k k2 f.obj (k.size f.obj) (k.size f.obj)) ∨
        (∃ k2 l, Options.truncateStep tab k1 o fd (k.size f.obj) =
            (k2, .ok (if o.truncate then 0 else k.size f.obj)) ∧
          k2.log = l ++ k.log ∧ LengthCalls fd l ∧ OnlyFile k k2 f.obj ∧
          Resized k k2 f.obj (if o.truncate then 0 else k.size f.obj)
            (if o.truncate then 0 else k.size f.obj) ∧
          ((o.truncate = false ∨ k.size f.obj = 0) →
            l = [⟨.fstat fd, .ok (k.size f.obj)⟩])) := by
      unfold Options.truncateStep
      by_cases hc : (o.truncate && decide (k.size f.obj > 0)) = true
      · rw [if_pos hc]
        simp only [Bool.and_eq_true, decide_eq_true_eq] at hc
        rcases resizeFile_cases tab hf1 hlp (sz := 0) with
          ⟨k2, e, l, h1, h2, h3, h4, h5, h6, h7⟩ | ⟨k2, h1, h2, -, h3, -, h4⟩
        · refine .inl ⟨k2, e, l ++ [⟨.fstat fd, .ok (k.size f.obj)⟩], h1, ?_,
            LengthCalls.append h6 LengthCalls.one_stat, ?_, o1.trans h2, ?_⟩
          · rw [h5, l1, List.append_assoc]
          · rcases h7 with ⟨en, rfl, rfl⟩ | ⟨h7, -⟩
            · exact .inl ⟨_, en, _, rfl, rfl⟩
            · omega
          · exact ⟨by rw [h3, s1], fun i _ _ => by rw [h4, d1], fun i a b => by omega⟩
        · refine .inr ⟨k2, [⟨.ftruncate fd 0, .ok 0⟩] ++ [⟨.fstat fd, .ok (k.size f.obj)⟩], ?_, ?_,
            LengthCalls.append LengthCalls.one_trunc LengthCalls.one_stat, o1.trans h2, ?_, ?_⟩
          · rw [h1, hc.1]; rfl
          · rw [h4, l1, List.append_assoc]
          · rw [hc.1]; exact ⟨h3.size, fun i _ h => by simp at h, fun i h _ => by simp at h⟩
          · rintro (h | h)
            · rw [hc.1] at h; cases h
            · omega
      · rw [if_neg hc]
        have hb : (if o.truncate then 0 else k.size f.obj) = k.size f.obj := by
          cases ht : o.truncate
          · rfl
          · simp [ht] at hc; simp [hc]
        rw [hb]
        exact .inr ⟨k1, _, rfl, l1, LengthCalls.one_stat, o1, r1, fun _ => rfl⟩
    rcases trunc with ⟨k2, e, l, h1, h2, h3, h4, h5, h6⟩ | ⟨k2, l2, h1, h2, h3, h4, h5, h6⟩
    · rw [h1]
      refine .inl ⟨k2, e, l, rfl, h2, h3, h4, (by rw [hf]; intro h; cases h), ?_⟩
      intro f' hf'
      rw [hf] at hf'; injection hf' with hf'; subst hf'
      exact ⟨h5, .inl h6⟩
    · rw [h1]
      simp only
      have hf2 : k2.fds fd = some f := by rw [h4.fds]; exact hf
      generalize hbase : (if o.truncate then 0 else k.size f.obj) = base at h5
      have hbl : base < t.lim := by subst hbase; split <;> omega
      have fail : ∀ sz, (o.resize = .exact sz ∨ o.resize = .min sz ∨ o.resize = .max sz) →
          sz < t.lim →
          (∀ e k3, Options.resizeFile tab k2 fd sz = (k3, .error e) →
            ∃ l, k3.log = l ++ k.log ∧ LengthCalls fd l ∧ LengthError tab l o.resize e ∧
            OnlyFile k k3 f.obj ∧ (Resized k k3 f.obj (k.size f.obj) (k.size f.obj) ∨
              (o.truncate = true ∧ k3.size f.obj = 0))) ∧
          (∀ r k3, Options.resizeFile tab k2 fd sz = (k3, .ok r) →
            r = sz ∧ OnlyFile k k3 f.obj ∧ Resized k k3 f.obj base sz ∧
            ∃ l, k3.log = l ++ k.log ∧ LengthCalls fd l) := by
        intro sz hres hszl
        rcases resizeFile_cases tab hf2 hszl with
          ⟨k3, e, l, g1, g2, g3, g4, g5, g6, g7⟩ | ⟨k3, g1, g2, -, g3, -, g4⟩
        · refine ⟨?_, by intro r k3' h; rw [g1] at h; cases h⟩
          intro e' k3' h
          rw [g1] at h; cases h
          refine ⟨l ++ l2, by rw [g5, h2, List.append_assoc], LengthCalls.append g6 h3, ?_, h4.trans g2, ?_⟩
          · rcases g7 with ⟨en, rfl, rfl⟩ | ⟨g7, rfl, msg, rfl⟩
            · exact .inl ⟨_, en, _, rfl, rfl⟩
            · exact .inr ⟨sz, msg, hres, g7, rfl⟩
          · cases ht : o.truncate with
            | false =>
              rw [ht] at hbase
              simp only [Bool.false_eq_true, if_false] at hbase
              subst hbase
              exact .inl ⟨by rw [g3, h5.size], fun i a b => by rw [g4, h5.kept i a b],
                fun i a b => by omega⟩
            | true =>
              rw [ht] at hbase
              simp only [if_true] at hbase
              subst hbase
              exact .inr ⟨rfl, by rw [g3, h5.size]⟩
        · refine ⟨(by intro e k3' h; rw [g1] at h; cases h), ?_⟩
          intro r k3' h
          rw [g1] at h; cases h
          refine ⟨rfl, h4.trans g2, ?_, _, by rw [g4, h2, ← List.append_assoc],
            LengthCalls.append LengthCalls.one_trunc h3⟩
          refine ⟨g3.size, ?_, ?_⟩
          · intro i a b
            rw [g3.kept i a (by rw [h5.size]; exact b), h5.kept i b b]
          · intro i a b
            exact g3.zero i a (by rw [h5.size]; exact b)
      have same : o.resize = .endOf ∨ newLen o.truncate o.resize (k.size f.obj) = base → 
          newLen o.truncate o.resize (k.size f.obj) = base := by
        rintro (h | h)
        · rw [h, ← hbase]; rfl
        · exact h
      -- no resizing needed
      have quiet : newLen o.truncate o.resize (k.size f.obj) = base →
          ∃ f' k1 l, k.fds fd = some f' ∧ 
            Options.mapStep t k2 o fd base =
              Options.mapStep t k1 o fd (newLen o.truncate o.resize (k.size f'.obj)) ∧
            OnlyFile k k1 f'.obj ∧
            Resized k k1 f'.obj (if o.truncate then 0 else k.size f'.obj)
              (newLen o.truncate o.resize (k.size f'.obj)) ∧
            newLen o.truncate o.resize (k.size f'.obj) < t.lim ∧
            k1.log = l ++ k.log ∧ LengthCalls fd l ∧
            ((o.truncate = false ∨ k.size f'.obj = 0) →
              (∀ n, o.resize ≠ .exact n) →
              newLen o.truncate o.resize (k.size f'.obj) = k.size f'.obj →
              l = [⟨.fstat fd, .ok (k.size f'.obj)⟩]) := by
        intro hn
        refine ⟨f, k2, l2, hf, by rw [hn], h4, by rw [hn, hbase]; exact h5, by rw [hn]; exact hbl,
          h2, h3, fun a _ _ => h6 a⟩
      have changed : ∀ sz, newLen o.truncate o.resize (k.size f.obj) = sz →
          (o.resize = .exact sz ∨ (sz ≠ base ∧ (o.resize = .min sz ∨ o.resize = .max sz))) →
          sz < t.lim →
          (∃ k1 e l, (match Options.resizeFile tab k2 fd sz with
              | (k, .error e) => (return (k, .error e) : Exec (Kernel × Result (Option MapMut)))
              | (k, .ok flen) => Options.mapStep t k o fd flen) = .ok (k1, .error e) ∧
            k1.log = l ++ k.log ∧ LengthCalls fd l ∧ LengthError tab l o.resize e ∧
            (k.fds fd = none → OnlyFile k k1 0 ∧ k1.size = k.size ∧ k1.data = k.data) ∧
            ∀ f, k.fds fd = some f → OnlyFile k k1 f.obj ∧
              (Resized k k1 f.obj (k.size f.obj) (k.size f.obj) ∨
                (o.truncate = true ∧ k1.size f.obj = 0))) ∨
          (∃ f' k1 l, k.fds fd = some f' ∧
            (match Options.resizeFile tab k2 fd sz with
              | (k, .error e) => (return (k, .error e) : Exec (Kernel × Result (Option MapMut)))
              | (k, .ok flen) => Options.mapStep t k o fd flen) =
              Options.mapStep t k1 o fd (newLen o.truncate o.resize (k.size f'.obj)) ∧
            OnlyFile k k1 f'.obj ∧
            Resized k k1 f'.obj (if o.truncate then 0 else k.size f'.obj)
              (newLen o.truncate o.resize (k.size f'.obj)) ∧
            newLen o.truncate o.resize (k.size f'.obj) < t.lim ∧
            k1.log = l ++ k.log ∧ LengthCalls fd l ∧
            ((o.truncate = false ∨ k.size f'.obj = 0) →
              (∀ n, o.resize ≠ .exact n) →
              newLen o.truncate o.resize (k.size f'.obj) = k.size f'.obj →
              l = [⟨.fstat fd, .ok (k.size f'.obj)⟩])) := by
        intro sz hn hres hszl
        obtain ⟨ferr, fok⟩ := fail sz (by rcases hres with h | ⟨-, h | h⟩ <;> simp [h]) hszl
        cases hr : Options.resizeFile tab k2 fd sz with
        | mk k3 r =>
          cases r with
          | error e =>
            obtain ⟨l, a1, a2, a3, a4, a5⟩ := ferr e k3 hr
            refine .inl ⟨k3, e, l, rfl, a1, a2, a3, (by rw [hf]; intro h; cases h), ?_⟩
            intro f' hf'
            rw [hf] at hf'; injection hf' with hf'; subst hf'
            exact ⟨a4, a5⟩
          | ok r =>
            obtain ⟨rfl, a1, a2, l, a3, a4⟩ := fok r k3 hr
            refine .inr ⟨f, k3, l, hf, by rw [hn], a1, by rw [hn, hbase]; exact a2,
              by rw [hn]; exact hszl, a3, a4, ?_⟩
            intro b1 b2 b3
            rcases hres with h | ⟨h, -⟩
            · exact absurd h (b2 r)
            · exfalso
              apply h
              rw [← hn, b3, ← hbase]
              rcases b1 with b1 | b1
              · simp [b1]
              · simp [b1]
      have hfr := hfit.resize
      cases hres : o.resize with
      | endOf =>
        have hn := same (.inl hres)
        simp only [Options.resizeStep, hres]
        rw [hres] at quiet hn
        exact .inr (quiet hn)
      | exact sz =>
        simp only [Options.resizeStep, hres]
        rw [hres] at changed hfr
        exact changed sz rfl (.inl rfl) hfr
      | min sz =>
        rw [hres] at changed hfr quiet
        simp only [Options.resizeStep, hres]
        have hd : newLen o.truncate (.min sz) (k.size f.obj) = Nat.max sz base := by
          rw [← hbase]; rfl
        by_cases hc : sz > base
        · rw [if_pos hc]
          exact changed sz (by rw [hd]; exact Nat.max_eq_left (by omega))
            (.inr ⟨by omega, .inl rfl⟩) hfr
        · rw [if_neg hc]
          exact .inr (quiet (by rw [hd]; exact Nat.max_eq_right (by omega)))
      | max sz =>
        rw [hres] at changed hfr quiet
        simp only [Options.resizeStep, hres]
        have hd : newLen o.truncate (.max sz) (k.size f.obj) = Nat.min sz base := by
          rw [← hbase]; rfl
        by_cases hc : sz < base
        · rw [if_pos hc]
          exact changed sz (by rw [hd]; exact Nat.min_eq_left (by omega))
            (.inr ⟨by omega, .inr rfl⟩) hfr
        · rw [if_neg hc]
          exact .inr (quiet (by rw [hd]; exact Nat.min_eq_right (by omega)))

end Vmap
