import Verif.Proofs.MapIfFrame
import Verif.Spec.BigFile
/- Helper lemmas: the stages of `Options::map_if` before the mapping, for files of every length. -/
namespace Vmap
open Kernel Spec

/-- A step that only concerns the length of the file: it fails with the right error, or the file is
`n` bytes long now, of which `keep` were kept, and looks as if it were `flen` long. -/
structure SizeStep (tab : SysTable) (resize : Extent) (k k' : Kernel) (fd : Nat) (f : Fd)
    (r : Result Nat) (flen keep n : Nat) (l : List Event) : Prop where
  only : OnlyFile k k' f.obj
  log : k'.log = l ++ k.log
  calls : LengthCalls fd l
  res : (∃ e, r = .error e ∧ LengthError tab l resize e) ∨
    (r = .ok flen ∧ Resized k k' f.obj keep n)

theorem resizeFile_size (tab : SysTable) {t : Target} {resize : Extent} {k : Kernel} {fd sz : Nat}
    {f : Fd} (hf : k.fds fd = some f) (hsz : sz < t.lim)
    (hres : 2 ^ 63 ≤ sz → resize = .exact sz ∨ resize = .min sz ∨ resize = .max sz) :
    ∃ l, SizeStep tab resize k (Options.resizeFile tab k fd sz).1 fd f
      (Options.resizeFile tab k fd sz).2 sz (k.size f.obj) sz l := by
  rcases resizeFile_cases tab hf hsz with ⟨k1, e, l, h1, h2, -, -, h3, h4, h5⟩ |
    ⟨k1, h1, h2, -, h3, -, h4⟩
  · rw [h1]
    refine ⟨l, h2, h3, h4, .inl ⟨e, rfl, ?_⟩⟩
    rcases h5 with ⟨en, rfl, rfl⟩ | ⟨h7, rfl, msg, rfl⟩
    · exact .inl ⟨_, en, _, rfl, rfl⟩
    · exact .inr ⟨sz, msg, hres h7, h7, rfl⟩
  · rw [h1]
    exact ⟨_, h2, h4, LengthCalls.one_trunc, .inr ⟨rfl, h3⟩⟩

theorem truncateStep_size (tab : SysTable) {t : Target} {k : Kernel} {o : Options} {fd : Nat}
    {f : Fd} (hf : k.fds fd = some f) (seen : Nat) (size : Nat) (hs : k.size f.obj = size) :
    ∃ l, SizeStep tab o.resize k (Options.truncateStep tab k o fd seen).1 fd f
      (Options.truncateStep tab k o fd seen).2 (if o.truncate then 0 else seen)
      (cutLen o.truncate size seen) (cutLen o.truncate size seen) l := by
  subst hs
  unfold Options.truncateStep
  by_cases hc : (o.truncate && decide (seen > 0)) = true
  · rw [if_pos hc]
    simp only [Bool.and_eq_true, decide_eq_true_eq] at hc
    have e1 : cutLen o.truncate (k.size f.obj) seen = 0 := by rw [cutLen, if_pos hc]
    obtain ⟨l, h⟩ := resizeFile_size tab (resize := o.resize) hf t.lim_pos
      (fun h => absurd h (by decide))
    rw [e1, if_pos hc.1]
    refine ⟨l, h.only, h.log, h.calls, ?_⟩
    rcases h.res with h1 | ⟨h1, h2⟩
    · exact .inl h1
    · exact .inr ⟨h1, h2.size, fun i h => absurd h (by omega), fun i h => absurd h (by omega)⟩
  · rw [if_neg hc]
    have hc' : ¬ (o.truncate = true ∧ 0 < seen) := by
      intro h; apply hc; simp only [Bool.and_eq_true, decide_eq_true_eq]; exact h
    have e2 : (if o.truncate then 0 else seen) = seen := by
      by_cases ht : o.truncate = true
      · rw [if_pos ht]
        exact (Nat.eq_zero_of_not_pos (fun h => hc' ⟨ht, h⟩)).symm
      · rw [if_neg ht]
    rw [cutLen, if_neg hc', e2]
    exact ⟨[], OnlyFile.refl _ _, rfl, LengthCalls.nil, .inr ⟨rfl, Resized.refl _ _⟩⟩

/-- Everything `map_if` does before it decides about the range, for every length of the file. -/
theorem prep_all (tab : SysTable) {t : Target} {k : Kernel} {o : Options} {fd : Nat} {f : Fd}
    (hfit : Fits t o) (hf : k.fds fd = some f) :
    (∃ k1 e l, o.mapIf tab t k fd = .ok (k1, .error e) ∧ OnlyFile k k1 f.obj ∧
      k1.log = l ++ k.log ∧ LengthCalls fd l ∧ LengthError tab l o.resize e) ∨
    (∃ k1 l, o.mapIf tab t k fd =
        Options.mapStep t k1 o fd (newLen o.truncate o.resize (k.size f.obj % t.lim)) ∧
      OnlyFile k k1 f.obj ∧
      Resized k k1 f.obj (cutLen o.truncate (k.size f.obj) (k.size f.obj % t.lim))
        (leftLen o.truncate o.resize (k.size f.obj) (k.size f.obj % t.lim)) ∧
      newLen o.truncate o.resize (k.size f.obj % t.lim) < t.lim ∧
      k1.log = l ++ k.log ∧ LengthCalls fd l) := by
  have hlp := t.lim_pos
  rcases fstat_cases k fd with ⟨e, he⟩ | ⟨f', hf', he⟩
  · exact .inl ⟨_, _, _, by simp only [Options.mapIf, File.len, ioErr, he]; rfl,
      by constructor <;> intros <;> rfl, rfl, LengthCalls.one_stat, .inl ⟨_, e, [], rfl, rfl⟩⟩
  rw [hf] at hf'; injection hf' with hf'; subst hf'
  obtain ⟨k1, hk1⟩ : ∃ k1, k1 = (k.fstatLen fd).1 := ⟨_, rfl⟩
  have he' : k.fstatLen fd = (k1, .ok (k.size f.obj)) := by rw [hk1, he]
  rw [he] at hk1
  simp only at hk1
  clear he
  have o1 : OnlyFile k k1 f.obj := by subst hk1; constructor <;> intros <;> rfl
  have s1 : k1.size = k.size := by subst hk1; rfl
  have d1 : k1.data = k.data := by subst hk1; rfl
  have l1 : k1.log = [⟨.fstat fd, .ok (k.size f.obj)⟩] ++ k.log := by subst hk1; rfl
  clear hk1
  have hf1 : k1.fds fd = some f := by rw [o1.fds]; exact hf
  obtain ⟨seen, hseen⟩ : ∃ seen, seen = k.size f.obj % t.lim := ⟨_, rfl⟩
  have hsl : seen < t.lim := by rw [hseen]; exact Nat.mod_lt _ hlp
  have start : o.mapIf tab t k fd =
      (match Options.truncateStep tab k1 o fd seen with
      | (k, .error e) => return (k, .error e)
      | (k, .ok flen) =>
        match Options.resizeStep tab k o fd flen with
        | (k, .error e) => return (k, .error e)
        | (k, .ok flen) => Options.mapStep t k o fd flen) := by
    rw [hseen]
    simp only [Options.mapIf, File.len, ioErr, he']
    rfl
  rw [start, ← hseen]
  clear start he'
  obtain ⟨l2, tr⟩ := truncateStep_size tab (t := t) (o := o) hf1 seen (k.size f.obj) (by rw [s1])
  generalize Options.truncateStep tab k1 o fd seen = x at tr
  obtain ⟨k2, r⟩ := x
  have o2 := o1.trans tr.only
  have lg2 : k2.log = (l2 ++ [⟨.fstat fd, .ok (k.size f.obj)⟩]) ++ k.log := by
    have := tr.log; simp only at this; rw [this, l1, List.append_assoc]
  have lc2 := tr.calls.append (LengthCalls.one_stat (fd := fd) (r := .ok (k.size f.obj)))
  have grow : ∀ {l : List Event} {e : Error} (l' : List Event), LengthError tab l o.resize e →
      LengthError tab (l ++ l') o.resize e := by
    rintro l e l' (⟨c, en, rest, rfl, rfl⟩ | h)
    · exact .inl ⟨c, en, rest ++ l', rfl, rfl⟩
    · exact .inr h
  rcases tr.res with ⟨e, rfl, he⟩ | ⟨rfl, hr⟩
  · exact .inl ⟨k2, e, _, rfl, o2, lg2, lc2, grow _ he⟩
  simp only
  simp only at hr
  have hf2 : k2.fds fd = some f := by rw [o2.fds]; exact hf
  have hr2 : Resized k k2 f.obj (cutLen o.truncate (k.size f.obj) seen)
      (cutLen o.truncate (k.size f.obj) seen) :=
    ⟨hr.size, fun i a b => by rw [hr.kept i a b, d1], hr.zero⟩
  -- a resizing to `sz`
  have changed : ∀ sz, (o.resize = .exact sz ∨ o.resize = .min sz ∨ o.resize = .max sz) →
      sz < t.lim →
      newLen o.truncate o.resize seen = sz →
      leftLen o.truncate o.resize (k.size f.obj) seen = sz →
      (∃ k1 e l, (match Options.resizeFile tab k2 fd sz with
          | (k, .error e) => (return (k, .error e) : Exec (Kernel × Result (Option MapMut)))
          | (k, .ok flen) => Options.mapStep t k o fd flen) = .ok (k1, .error e) ∧
        OnlyFile k k1 f.obj ∧ k1.log = l ++ k.log ∧ LengthCalls fd l ∧
        LengthError tab l o.resize e) ∨
      (∃ k1 l, (match Options.resizeFile tab k2 fd sz with
          | (k, .error e) => (return (k, .error e) : Exec (Kernel × Result (Option MapMut)))
          | (k, .ok flen) => Options.mapStep t k o fd flen) =
          Options.mapStep t k1 o fd (newLen o.truncate o.resize seen) ∧
        OnlyFile k k1 f.obj ∧
        Resized k k1 f.obj (cutLen o.truncate (k.size f.obj) seen)
          (leftLen o.truncate o.resize (k.size f.obj) seen) ∧
        newLen o.truncate o.resize seen < t.lim ∧
        k1.log = l ++ k.log ∧ LengthCalls fd l) := by
    intro sz hres hszl e1 e2
    obtain ⟨l, h⟩ := resizeFile_size tab (resize := o.resize) hf2 hszl (fun _ => hres)
    generalize Options.resizeFile tab k2 fd sz = x at h
    obtain ⟨k3, r⟩ := x
    have lg3 : k3.log = (l ++ (l2 ++ [⟨.fstat fd, .ok (k.size f.obj)⟩])) ++ k.log := by
      have := h.log; simp only at this; rw [this, lg2]; simp only [List.append_assoc]
    have lc3 := h.calls.append lc2
    rcases h.res with ⟨e, rfl, he⟩ | ⟨rfl, hz⟩
    · exact .inl ⟨k3, e, _, rfl, o2.trans h.only, lg3, lc3, grow _ he⟩
    · refine .inr ⟨k3, _, by rw [e1], o2.trans h.only, ?_, by rw [e1]; exact hszl, lg3, lc3⟩
      rw [e2]
      simp only [hr2.size] at hz
      exact ⟨hz.size, fun i a b => by rw [hz.kept i a b, hr2.kept i b b], hz.zero⟩
  -- no resizing
  have quiet : newLen o.truncate o.resize seen = (if o.truncate then 0 else seen) →
      leftLen o.truncate o.resize (k.size f.obj) seen = cutLen o.truncate (k.size f.obj) seen →
      ∃ k1 l, Options.mapStep t k2 o fd (if o.truncate then 0 else seen) =
          Options.mapStep t k1 o fd (newLen o.truncate o.resize seen) ∧
        OnlyFile k k1 f.obj ∧
        Resized k k1 f.obj (cutLen o.truncate (k.size f.obj) seen)
          (leftLen o.truncate o.resize (k.size f.obj) seen) ∧
        newLen o.truncate o.resize seen < t.lim ∧
        k1.log = l ++ k.log ∧ LengthCalls fd l := by
    intro e1 e2
    refine ⟨k2, _, by rw [e1], o2, by rw [e2]; exact hr2, ?_, lg2, lc2⟩
    rw [e1]; split <;> omega
  have hfr := hfit.resize
  generalize hlook : (if o.truncate then 0 else seen) = look at *
  cases hres : o.resize with
  | endOf =>
    rw [hres] at quiet
    simp only [Options.resizeStep, hres]
    exact .inr (quiet (by simp only [newLen]; exact hlook) rfl)
  | exact sz =>
    rw [hres] at changed hfr
    simp only [Options.resizeStep, hres]
    exact changed sz (.inl rfl) hfr rfl rfl
  | min sz =>
    rw [hres] at changed hfr quiet
    simp only [Options.resizeStep, hres]
    by_cases hc : sz > look
    · rw [if_pos hc]
      exact changed sz (.inr (.inl rfl)) hfr
        (by simp only [newLen, hlook]; exact Nat.max_eq_left (by omega))
        (by simp only [leftLen, hlook]; rw [if_pos hc])
    · rw [if_neg hc]
      exact .inr (quiet (by simp only [newLen, hlook]; exact Nat.max_eq_right (by omega))
        (by simp only [leftLen, hlook]; rw [if_neg hc]))
  | max sz =>
    rw [hres] at changed hfr quiet
    simp only [Options.resizeStep, hres]
    by_cases hc : sz < look
    · rw [if_pos hc]
      exact changed sz (.inr (.inr rfl)) hfr
        (by simp only [newLen, hlook]; exact Nat.min_eq_left (by omega))
        (by simp only [leftLen, hlook]; rw [if_pos hc])
    · rw [if_neg hc]
      exact .inr (quiet (by simp only [newLen, hlook]; exact Nat.min_eq_right (by omega))
        (by simp only [leftLen, hlook]; rw [if_neg hc]))

end Vmap
