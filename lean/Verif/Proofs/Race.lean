import Verif.Spec.Race
import Verif.Proofs.MapIfFrame
import Verif.Proofs.Open
/- Helper lemmas: `map_if` and `open_if` cut into system calls. -/
namespace Vmap
open Kernel Spec

theorem newLen_lt {t : Target} {o : Options} (hfit : Fits t o) {tr : Bool} {old : Nat}
    (h : old < t.lim) : newLen tr o.resize old < t.lim := by
  have hr := hfit.resize
  have hpos := t.lim_pos
  have hb : (if tr = true then 0 else old) < t.lim := by split <;> omega
  unfold newLen
  cases hres : o.resize with
  | endOf => exact hb
  | exact n => rw [hres] at hr; exact hr
  | min n => rw [hres] at hr; exact Nat.max_lt.mpr ⟨hr, hb⟩
  | max n => rw [hres] at hr; exact Nat.lt_of_le_of_lt (Nat.min_le_left _ _) hr

/-- What is known at each point of `map_if` about the length the file had when it was asked for. -/
def Seen (t : Target) (o : Options) (x : Obj) (S : List Kernel) : MapJob → Prop
  | .stat => True
  | .truncate => o.truncate = true ∧ ∃ k1, k1 ∈ S
  | .resize sz => ∃ k1 ∈ S, sz = newLen o.truncate o.resize (k1.size x % t.lim) ∧
      (o.resize = .exact sz ∨ o.resize = .min sz ∨ o.resize = .max sz)
  | .mmap flen => ∃ k1 ∈ S, flen = newLen o.truncate o.resize (k1.size x % t.lim)
  | .done (.ok none) => ∃ k1 ∈ S,
      ¬ InRange (newLen o.truncate o.resize (k1.size x % t.lim)) o.offset o.len
  | .done (.ok (some m)) => ∃ k1 ∈ S,
      InRange (newLen o.truncate o.resize (k1.size x % t.lim)) o.offset o.len ∧
      m.len = wanted (newLen o.truncate o.resize (k1.size x % t.lim)) o.offset o.len
  | .done (.error _) => True

theorem Seen.mono {t : Target} {o : Options} {x : Obj} {S S' : List Kernel} {j : MapJob}
    (h : Seen t o x S j) (hs : ∀ k, k ∈ S → k ∈ S') : Seen t o x S' j := by
  match j, h with
  | .stat, _ => trivial
  | .truncate, ⟨a, k, b⟩ => exact ⟨a, k, hs k b⟩
  | .resize _, ⟨k, a, b⟩ => exact ⟨k, hs k a, b⟩
  | .mmap _, ⟨k, a, b⟩ => exact ⟨k, hs k a, b⟩
  | .done (.ok none), ⟨k, a, b⟩ => exact ⟨k, hs k a, b⟩
  | .done (.ok (some _)), ⟨k, a, b⟩ => exact ⟨k, hs k a, b⟩
  | .done (.error _), _ => trivial

/-- How many calls are left at most. -/
def MapJob.rank : MapJob → Nat
  | .stat => 4
  | .truncate => 3
  | .resize _ => 2
  | .mmap _ => 1
  | .done _ => 0

theorem afterTruncate_rank (o : Options) (n : Nat) : (MapJob.afterTruncate o n).rank ≤ 2 := by
  unfold MapJob.afterTruncate
  cases o.resize <;> simp only <;> (try split) <;> simp [MapJob.rank]

theorem afterTruncate_seen {t : Target} {o : Options} {x : Obj} {S : List Kernel} {k1 : Kernel}
    (hk : k1 ∈ S) {n : Nat} (hn : n = if o.truncate then 0 else k1.size x % t.lim) :
    Seen t o x S (MapJob.afterTruncate o n) := by
  have key : newLen o.truncate o.resize (k1.size x % t.lim) = match o.resize with
      | .exact sz => sz
      | .min sz => Nat.max sz n
      | .max sz => Nat.min sz n
      | .endOf => n := by
    unfold newLen; subst hn; rfl
  unfold MapJob.afterTruncate
  cases hres : o.resize with
  | endOf => rw [hres] at key; exact ⟨k1, hk, by rw [hres, key]⟩
  | exact sz => rw [hres] at key; exact ⟨k1, hk, by rw [hres, key], .inl hres⟩
  | min sz =>
    rw [hres] at key
    simp only at key
    have e : Nat.max sz n = max sz n := rfl
    simp only
    split
    · exact ⟨k1, hk, by rw [hres, key, e]; omega, .inr (.inl hres)⟩
    · exact ⟨k1, hk, by rw [hres, key, e]; omega⟩
  | max sz =>
    rw [hres] at key
    simp only at key
    have e : Nat.min sz n = min sz n := rfl
    simp only
    split
    · exact ⟨k1, hk, by rw [hres, key, e]; omega, .inr (.inr hres)⟩
    · exact ⟨k1, hk, by rw [hres, key, e]; omega⟩

/-- What one system call of `map_if` does. -/
structure MapOwn (t : Target) (o : Options) (fd : Nat) (f : Fd) (k k' : Kernel) (j j' : MapJob) :
    Prop where
  wf : Wf t k'
  rank : j'.rank < j.rank ∨ ∃ r, j = .done r
  effect : (Cut k k' f.obj (lengths o.truncate o.resize) ∧
      (∀ m, j' = .done (.ok (some m)) → j = j')) ∨
    (SameButPages k k' ∧ ∃ flen m p n, j = .mmap flen ∧ j' = .done (.ok (some m)) ∧
      f.canRead = true ∧
      (sharedOf o.protect = true → (protOf o.protect).w = true → f.canWrite = true) ∧
      m.len = wanted flen o.offset o.len ∧ InRange flen o.offset o.len ∧
      Mapped t k k' m.ptr m.len f.obj o.offset (sharedOf o.protect)
        (!sharedOf o.protect || f.canWrite) (protOf o.protect) p n)

theorem Spec.Cut.of_same {k k' : Kernel} {x : Obj} {ls : List Nat} (h : OnlyFile k k' x)
    (hs : k'.size x = k.size x) (hd : k'.data x = k.data x) : Cut k k' x ls :=
  ⟨h, .inl ⟨hs, hd⟩⟩

theorem Kernel.OnlyFile.bump {k : Kernel} {x : Obj} {tick log} :
    OnlyFile k { k with tick := tick, log := log } x := by
  constructor <;> intros <;> rfl

theorem lengths_truncate {o : Options} (h : o.truncate = true) :
    0 ∈ lengths o.truncate o.resize := by
  unfold lengths; rw [h]; simp

theorem lengths_resize {o : Options} {sz : Nat}
    (h : o.resize = .exact sz ∨ o.resize = .min sz ∨ o.resize = .max sz) :
    sz ∈ lengths o.truncate o.resize := by
  unfold lengths
  rcases h with h | h | h <;> rw [h] <;> simp

theorem mapjob_resize (tab : SysTable) {t : Target} {k : Kernel} (w : Wf t k) {o : Options}
    {fd : Nat} {f : Fd} (hf : k.fds fd = some f) {sz : Nat} (hsz : sz < t.lim)
    (hl : sz ∈ lengths o.truncate o.resize) :
    Wf t (Options.resizeFile tab k fd sz).1 ∧
    Cut k (Options.resizeFile tab k fd sz).1 f.obj (lengths o.truncate o.resize) ∧
    (∀ n, (Options.resizeFile tab k fd sz).2 = .ok n → n = sz) := by
  rcases resizeFile_cases tab hf hsz with ⟨k1, e, l, h1, h2, h3, h4, -⟩ | ⟨k1, h1, h2, -, h3, -⟩
  · rw [h1]
    exact ⟨h2.wf w, .of_same h2 h3 h4, fun n h => by cases h⟩
  · rw [h1]
    exact ⟨h2.wf w, ⟨h2, .inr ⟨sz, hl, h3⟩⟩, fun n h => by injection h with h; exact h.symm⟩

theorem mapjob_step (tab : SysTable) {t : Target} {k : Kernel} (w : Wf t k) {o : Options}
    {fd : Nat} (hfit : Fits t o) {f : Fd} (hf : k.fds fd = some f) {h : List Kernel} {j : MapJob}
    (hs : Seen t o f.obj h j) :
    ∃ k' j', j.step tab t k o fd = .ok (k', j') ∧ MapOwn t o fd f k k' j j' ∧
      Seen t o f.obj (k :: h) j' := by
  have sub : ∀ x, x ∈ h → x ∈ k :: h := fun x hx => List.mem_cons_of_mem _ hx
  have hlim := t.lim_pos
  match j, hs with
  | .stat, _ =>
    rcases fstat_cases k fd with ⟨e, he⟩ | ⟨f', hf', he⟩
    · refine ⟨_, _, by simp only [MapJob.step, File.len, ioErr, he]; rfl, ?_, ?_⟩
      rotate_left
      · trivial
      refine ⟨?_, .inl ?_, .inl ⟨?_, ?_⟩⟩
      · exact w.same rfl rfl rfl rfl rfl rfl
      · simp [MapJob.rank]
      · exact .of_same .bump rfl rfl
      · intro m h; cases h
    · rw [hf] at hf'; injection hf' with hf'; subst hf'
      have hu : asUsize t (k.size f.obj) = k.size f.obj % t.lim := rfl
      by_cases hc : (o.truncate && decide (asUsize t (k.size f.obj) > 0)) = true
      · refine ⟨_, .truncate, by
          simp only [MapJob.step, File.len, ioErr, he]; rw [if_pos hc]; rfl, ?_, ?_⟩
        refine ⟨w.same rfl rfl rfl rfl rfl rfl, .inl (by simp [MapJob.rank]), .inl ⟨.of_same .bump rfl rfl, ?_⟩⟩
        · intro m h; cases h
        · rw [Bool.and_eq_true] at hc
          exact ⟨hc.1, k, List.mem_cons_self ..⟩
      · have hseen : Seen t o f.obj (k :: h) (MapJob.afterTruncate o (asUsize t (k.size f.obj))) := by
          apply afterTruncate_seen (List.mem_cons_self ..)
          rw [hu]
          cases htr : o.truncate with
          | false => simp
          | true =>
            rw [htr] at hc
            simp only [Bool.true_and, decide_eq_true_eq] at hc
            rw [if_pos rfl]; omega
        refine ⟨_, MapJob.afterTruncate o (asUsize t (k.size f.obj)), by
          simp only [MapJob.step, File.len, ioErr, he]; rw [if_neg hc]; rfl, ?_, hseen⟩
        refine ⟨w.same rfl rfl rfl rfl rfl rfl, .inl ?_, .inl ⟨.of_same .bump rfl rfl, ?_⟩⟩
        · have := afterTruncate_rank o (asUsize t (k.size f.obj))
          simp only [MapJob.rank] at this ⊢; omega
        · intro m h
          exfalso
          revert h
          unfold MapJob.afterTruncate
          cases o.resize <;> simp only <;> (try split) <;> intro h <;> cases h
  | .truncate, ⟨htr, k1, hk1⟩ =>
    have key := mapjob_resize tab w (o := o) hf hlim (lengths_truncate htr)
    generalize hx : Options.resizeFile tab k fd 0 = x at key
    obtain ⟨k', r⟩ := x
    simp only at key
    obtain ⟨a, b, c⟩ := key
    cases r with
    | error e =>
      refine ⟨k', .done (.error e), by simp only [MapJob.step, hx]; rfl,
        ⟨a, .inl (by simp [MapJob.rank]), .inl ⟨b, ?_⟩⟩, trivial⟩
      intro m h; injection h with h; cases h
    | ok n =>
      have hn := c n rfl
      subst hn
      refine ⟨k', MapJob.afterTruncate o 0, by simp only [MapJob.step, hx]; rfl,
        ⟨a, .inl ?_, .inl ⟨b, ?_⟩⟩, ?_⟩
      · have := afterTruncate_rank o 0
        simp only [MapJob.rank] at this ⊢; omega
      · intro m h
        exfalso
        revert h
        unfold MapJob.afterTruncate
        cases o.resize <;> simp only <;> (try split) <;> intro h <;> cases h
      · exact afterTruncate_seen (List.mem_cons_of_mem _ hk1) (by rw [htr]; rfl)
  | .resize sz, ⟨k1, hk1, hsz, hres⟩ =>
    have hlt : sz < t.lim := by rw [hsz]; exact newLen_lt hfit (Nat.mod_lt _ hlim)
    have key := mapjob_resize tab w (o := o) hf hlt (lengths_resize hres)
    generalize hx : Options.resizeFile tab k fd sz = x at key
    obtain ⟨k', r⟩ := x
    simp only at key
    obtain ⟨a, b, c⟩ := key
    cases r with
    | error e =>
      refine ⟨k', .done (.error e), by simp only [MapJob.step, hx]; rfl,
        ⟨a, .inl (by simp [MapJob.rank]), .inl ⟨b, ?_⟩⟩, trivial⟩
      intro m h; injection h with h; cases h
    | ok n =>
      have hn := c n rfl
      subst hn
      exact ⟨k', .mmap n, by simp only [MapJob.step, hx]; rfl,
        ⟨a, .inl (by simp [MapJob.rank]), .inl ⟨b, fun m h => by cases h⟩⟩, k1, sub _ hk1, hsz⟩
  | .mmap flen, ⟨k1, hk1, hfl⟩ =>
    have hlt : flen < t.lim := by rw [hfl]; exact newLen_lt hfit (Nat.mod_lt _ hlim)
    rcases mapStep_cases w (fd := fd) hfit hlt with ⟨g1, g⟩ | ⟨g1, e, g⟩ |
      ⟨g1, p, f', g2, g3, g4, g5, g6, g7, g8, g⟩
    · refine ⟨k, .done (.ok none), by simp only [MapJob.step, g]; rfl,
        ⟨w, .inl (by simp [MapJob.rank]), .inl ⟨.of_same (OnlyFile.refl _ _) rfl rfl, ?_⟩⟩,
        k1, sub _ hk1, by rw [← hfl]; exact g1⟩
      intro m h; injection h with h; injection h with h; cases h
    · refine ⟨_, _, by simp only [MapJob.step, g]; rfl, ?_, ?_⟩
      rotate_left
      · trivial
      refine ⟨w.same rfl rfl rfl rfl rfl rfl, .inl (by simp [MapJob.rank]), .inl ⟨.of_same .bump rfl rfl, ?_⟩⟩
      intro m h; injection h with h; cases h
    · have hff : f' = f := by rw [hf] at g6; injection g6 with g6; exact g6.symm
      subst hff
      refine ⟨_, _, by simp only [MapJob.step, g]; rfl, ?_, ?_⟩
      rotate_left
      · exact ⟨k1, sub _ hk1, by rw [← hfl]; exact g1, by rw [← hfl]⟩
      refine ⟨w.mapped rfl rfl rfl rfl (Nat.le_refl _) rfl (w.fds fd f' hf).1 (w.fd_ne hf) g3 g4,
          .inl (by simp [MapJob.rank]), .inr ⟨by constructor <;> rfl, flen, _, p,
            k.pages (wanted flen o.offset o.len + o.offset % k.page), rfl, rfl, g7, g8, rfl, g1, ?_⟩⟩
      have hpp := w.page_pos
      have hdm := Nat.div_add_mod o.offset k.page
      rw [Nat.mul_comm] at hdm
      have hmod := Nat.mod_lt o.offset hpp
      have hpl := pages_le hpp (wanted flen o.offset o.len + o.offset % k.page)
      refine ⟨pages_of hpp g3 hmod g2 g4, g5, ?_, fun q hq => if_neg hq⟩
      intro i hi
      dsimp only at hi ⊢
      have hin : (p * k.page + o.offset % k.page + i) / k.page - p
          = (o.offset % k.page + i) / k.page := by
        rw [show p * k.page + o.offset % k.page + i = (o.offset % k.page + i) + p * k.page by omega,
          Nat.add_mul_div_right _ _ hpp, Nat.add_sub_cancel]
      have hin2 : (p * k.page + o.offset % k.page + i) / k.page
          = (o.offset % k.page + i) / k.page + p := by
        rw [show p * k.page + o.offset % k.page + i = (o.offset % k.page + i) + p * k.page by omega,
          Nat.add_mul_div_right _ _ hpp]
      have hlt2 : (o.offset % k.page + i) / k.page < k.pages (wanted flen o.offset o.len + o.offset % k.page) := by
        apply Nat.div_lt_of_lt_mul
        rw [Nat.mul_comm]; omega
      have hin3 : p ≤ (p * k.page + o.offset % k.page + i) / k.page ∧
          (p * k.page + o.offset % k.page + i) / k.page <
            p + k.pages (wanted flen o.offset o.len + o.offset % k.page) := by
        rw [hin2]
        generalize (o.offset % k.page + i) / k.page = q at hlt2 ⊢
        omega
      refine ⟨_, if_pos hin3, rfl, ?_, rfl, rfl, rfl, rfl⟩
      dsimp only
      rw [hin]
      rw [show p * k.page + o.offset % k.page + i = (o.offset % k.page + i) + p * k.page by omega,
        Nat.add_mul_mod_self_right, Nat.add_mul]
      have := Nat.div_add_mod (o.offset % k.page + i) k.page
      rw [Nat.mul_comm] at this
      omega
  | .done r, hs =>
    exact ⟨k, .done r, rfl, ⟨w, .inr ⟨r, rfl⟩, .inl ⟨.of_same (OnlyFile.refl _ _) rfl rfl,
      fun m _ => rfl⟩⟩, hs.mono sub⟩

end Vmap

namespace Vmap
open Kernel Spec

theorem OpenOutcome.handed' {tab : SysTable} {k k' : Kernel} {o path r}
    (h : OpenOutcome tab k o path k' r) : k'.page = k.page ∧ k'.pt = k.pt := by
  cases h with
  | refused => exact ⟨rfl, rfl⟩
  | failed e => exact ⟨rfl, rfl⟩
  | existing _ x name new writable state others keep trunc => exact ⟨by rw [state], by rw [state]⟩
  | created name asks write => exact ⟨rfl, rfl⟩

/-- Throughout a call of `map_if`. -/
structure MapInv (t : Target) (o : Options) (fd : Nat) (f : Fd) (k0 : Kernel) (n : Nat)
    (h : List Kernel) (k : Kernel) (j : MapJob) : Prop where
  wf : Wf t k
  fd : k.fds fd = some f
  seen : Seen t o f.obj h j
  rank : n + j.rank ≤ 4 ∨ ∃ r, j = .done r
  page : k.page = k0.page
  fresh : k0.fresh ≤ k.fresh

theorem MapOwn.keeps {t : Target} {o : Options} {fd : Nat} {f : Fd} {k k' : Kernel} {j j' : MapJob}
    (h : MapOwn t o fd f k k' j j') : k'.page = k.page ∧ k'.fds = k.fds ∧ k'.names = k.names ∧
      k'.disk = k.disk ∧ k'.fresh = k.fresh ∧ k'.nextFd = k.nextFd := by
  rcases h.effect with ⟨c, -⟩ | ⟨c, -⟩
  · exact ⟨c.page, c.fds, c.names, c.disk, c.fresh, c.nextFd⟩
  · exact ⟨c.page, c.fds, c.names, c.disk, c.fresh, c.nextFd⟩

theorem MapInv.own {tab : SysTable} {t : Target} {o : Options} {fd : Nat} {f : Fd} {k0 : Kernel}
    (hfit : Fits t o) {n h k j} (i : MapInv t o fd f k0 n h k j) :
    ∃ k' j', j.step tab t k o fd = .ok (k', j') ∧ MapOwn t o fd f k k' j j' ∧
      MapInv t o fd f k0 (n + 1) (k :: h) k' j' := by
  obtain ⟨k', j', h1, h2, h3⟩ := mapjob_step tab i.wf hfit i.fd i.seen
  obtain ⟨a, b, c, d, e, g⟩ := h2.keeps
  refine ⟨k', j', h1, h2, h2.wf, by rw [b]; exact i.fd, h3, ?_, a.trans i.page, by rw [e]; exact i.fresh⟩
  rcases h2.rank with h | ⟨r, h⟩
  · rcases i.rank with g | ⟨r, g⟩
    · exact .inl (by omega)
    · subst g; simp [MapJob.rank] at h
  · subst h
    injection h1 with h1; injection h1 with _ h1
    exact .inr ⟨r, h1.symm⟩

theorem maprun_inv {tab : SysTable} {t : Target} {o : Options} {fd : Nat} {f : Fd} {E k0}
    (w : Wf t k0) (hfit : Fits t o) (hf : k0.fds fd = some f) {n h k j}
    (r : MapRun tab t o fd E k0 n h k j) : MapInv t o fd f k0 n h k j := by
  induction r with
  | start => exact ⟨w, hf, trivial, .inl (by simp [MapJob.rank]), rfl, Nat.le_refl _⟩
  | own before step ih =>
    obtain ⟨k', j', h1, -, h3⟩ := ih.own (tab := tab) hfit
    rw [h1] at step
    injection step with step; injection step with s1 s2
    subst s1 s2
    exact h3
  | other before what cond ih =>
    exact ⟨what.wf, by rw [what.fd fd rfl]; exact ih.fd,
      ih.seen.mono (fun x hx => List.mem_cons_of_mem _ hx), ih.rank, what.page.trans ih.page,
      Nat.le_trans ih.fresh what.fresh⟩

/-- Throughout a call of `open_if`. -/
structure OpenInv (t : Target) (o : Options) (path : String) (k0 : Kernel) (n : Nat)
    (h : List Kernel) (k : Kernel) (j : OpenJob) : Prop where
  wf : Wf t k
  page : k.page = k0.page
  fresh : k0.fresh ≤ k.fresh
  start : j = .start → n = 0
  mapping : ∀ fd mj, j = .mapping fd mj → ∃ x, k.fds fd = some ⟨x, true, o.openOptions.write⟩ ∧
    Seen t o x h mj ∧ n + mj.rank ≤ 5 ∧ (∀ r, mj ≠ .done r) ∧
    ∃ k1 ∈ h, k1.fds fd = none ∧
      (k1.names path = some x ∧ o.openOptions.createNew = false ∨
        k1.names path = none ∧ k1.fresh ≤ x ∧ k0.fresh ≤ k1.fresh ∧ o.openOptions.write = true ∧
          (o.openOptions.create = true ∨ o.openOptions.createNew = true))
  abandon : ∀ fd e, j = .abandon fd e → n ≤ 5 ∧ ∃ f, k.fds fd = some f

theorem openrun_start {tab : SysTable} {t : Target} {o : Options} {path : String} {k0 : Kernel}
    {n h k} (i : OpenInv t o path k0 n h k .start) :
    ∃ k' j', OpenJob.step tab t k o path .start = .ok (k', j') ∧
      OpenInv t o path k0 (n + 1) (k :: h) k' j' := by
  have ho := open_outcome tab k o.openOptions path
  generalize hx : o.openOptions.open tab k path = x at ho
  obtain ⟨k1, r1⟩ := x
  simp only at ho
  have w1 := ho.wf i.wf
  have hn := i.start rfl
  have hnone : k.fds k.nextFd = none := by
    cases h : k.fds k.nextFd with
    | none => rfl
    | some f => have := (i.wf.fds _ f h).2; omega
  have hfresh : k.fresh ≤ k1.fresh := by
    clear hx
    cases ho with
    | refused => exact Nat.le_refl _
    | failed => exact Nat.le_refl _
    | existing _ x name new writable state => rw [state]; exact Nat.le_refl _
    | created => exact Nat.le_succ _
  have hpage := ho.handed'.1
  cases r1 with
  | error e =>
    exact ⟨k1, .done (.error (Options.mapFileErr e)), by simp only [OpenJob.step, hx]; rfl,
      w1, hpage.trans i.page, Nat.le_trans i.fresh hfresh, (fun h => by cases h),
      (fun _ _ h => by cases h), fun _ _ h => by cases h⟩
  | ok fd =>
    refine ⟨k1, .mapping fd .stat, by simp only [OpenJob.step, hx]; rfl,
      w1, hpage.trans i.page, Nat.le_trans i.fresh hfresh, (fun h => by cases h), ?_,
      fun _ _ h => by cases h⟩
    intro fd' mj h
    injection h with h1 h2
    subst h1 h2
    clear hx
    cases ho with
    | existing _ x name new writable state =>
      refine ⟨x, ?_, trivial, by simp [MapJob.rank]; omega, (fun r h => by cases h), k,
        List.mem_cons_self .., hnone, .inl ⟨name, new⟩⟩
      rw [state]; exact if_pos rfl
    | created name asks write =>
      refine ⟨k.fresh, ?_, trivial, by simp [MapJob.rank]; omega, (fun r h => by cases h), k,
        List.mem_cons_self .., hnone, .inr ⟨name, Nat.le_refl _, i.fresh, write, asks⟩⟩
      rw [write]
      exact if_pos rfl

end Vmap

namespace Vmap
open Kernel Spec

theorem MapOwn.harmless {t : Target} {o : Options} {fd : Nat} {f : Fd} {k k' : Kernel}
    {j j' : MapJob} (h : MapOwn t o fd f k k' j j') (hf : k.fds fd = some f) (path : String)
    (mine' : Option Nat) : Harmless o path (some fd) mine' k k' := by
  obtain ⟨a, b, c, d, -⟩ := h.keeps
  rcases h.effect with ⟨g, -⟩ | ⟨g, flen, m, p, n, -, -, -, -, -, -, g2⟩
  · refine ⟨fun q e hq => by rw [g.pt]; exact hq, fun d _ _ => by rw [b], d, fun n => .inl (by rw [c]), ?_⟩
    intro x hx
    by_cases hxo : x = f.obj
    · subst hxo
      rcases g.file with h | h
      · exact .inl h
      · exact .inr ⟨h, .inr ⟨fd, f, rfl, hf, rfl⟩⟩
    · exact .inl ⟨g.size x hxo, g.data x hxo⟩
  · refine ⟨fun q e hq => ?_, fun d _ _ => by rw [b], d, fun n => .inl (by rw [c]),
      fun x _ => .inl ⟨by rw [g.size], by rw [g.data]⟩⟩
    rw [g2.others q]
    · exact hq
    · rintro ⟨h1, h2⟩
      rw [g2.free q h1 h2] at hq; cases hq

theorem OpenOutcome.harmless {tab : SysTable} {k k' : Kernel} {o : Options} {path r}
    (hb : o.openOptions.truncate = o.truncate)
    (h : OpenOutcome tab k o.openOptions path k' r) (mine' : Option Nat)
    (hm : ∀ fd, r = .ok fd → mine' = some fd) : Harmless o path none mine' k k' := by
  cases h with
  | refused => exact ⟨fun _ _ h => h, fun _ _ _ => rfl, rfl, fun _ => .inl rfl, fun _ _ => .inl ⟨rfl, rfl⟩⟩
  | failed e =>
    exact ⟨fun _ _ h => h, fun _ _ _ => rfl, rfl, fun _ => .inl rfl, fun _ _ => .inl ⟨rfl, rfl⟩⟩
  | existing _ x name new writable state others keep trunc =>
    have hm := hm _ rfl
    refine ⟨fun _ _ h => by rw [state]; exact h, ?_, by rw [state], fun _ => .inl (by rw [state]), ?_⟩
    · intro d _ hd
      rw [state]
      exact if_neg (fun h => hd (by rw [hm, h]))
    · intro y hy
      by_cases hyx : y = x
      · subst hyx
        cases htr : o.openOptions.truncate with
        | false =>
          obtain ⟨a, b⟩ := keep htr
          exact .inl ⟨by rw [a], by rw [b]⟩
        | true =>
          refine .inr ⟨⟨0, lengths_truncate (hb ▸ htr), trunc htr, fun i hi => by omega,
            fun i hi => by omega⟩, .inl ⟨rfl, name, new⟩⟩
      · exact .inl (others y hyx)
  | created name asks write =>
    have hm := hm _ rfl
    refine ⟨fun _ _ h => h, ?_, rfl, ?_, ?_⟩
    · intro d _ hd
      exact if_neg (fun h => hd (by rw [hm, h]))
    · intro n
      by_cases hn : n = path
      · subst hn; exact .inr ⟨rfl, name, write, asks⟩
      · exact .inl (if_neg hn)
    · intro x hx
      exact .inl ⟨if_neg (by omega), funext fun i => if_neg (by omega)⟩

/-- What a system call of `open_if` does. -/
structure OpenOwn (t : Target) (o : Options) (path : String) (h : List Kernel) (k k' : Kernel)
    (j j' : OpenJob) : Prop where
  harmless : o.openOptions.truncate = o.truncate → Harmless o path j.fd j'.fd k k'
  /-- no map is made without being returned -/
  pt : (∀ m fd, j' = .done (.ok (some m, fd)) → j = j') → k'.pt = k.pt
  /-- a failure closes the file -/
  failed : ∀ e, j' = .done (.error e) → ∀ d, j.fd = some d → k'.fds d = none
  /-- a success returns it -/
  result : ∀ mo fd, j' = .done (.ok (mo, fd)) → j ≠ j' → j.fd = some fd ∧ k'.fds = k.fds ∧
    ∃ x, k.fds fd = some ⟨x, true, o.openOptions.write⟩ ∧
      Seen t o x (k :: h) (.done (.ok mo)) ∧
      (∀ m, mo = some m → ∃ p n, Mapped t k k' m.ptr m.len x o.offset (sharedOf o.protect)
        (!sharedOf o.protect || o.openOptions.write) (protOf o.protect) p n)

theorem OpenInv.own {tab : SysTable} {t : Target} {o : Options} {path : String} {k0 : Kernel}
    (hfit : Fits t o) {n h k j} (i : OpenInv t o path k0 n h k j) :
    ∃ k' j', j.step tab t k o path = .ok (k', j') ∧ OpenOwn t o path h k k' j j' ∧
      OpenInv t o path k0 (n + 1) (k :: h) k' j' := by
  cases j with
  | start =>
    obtain ⟨k', j', h1, h2⟩ := openrun_start (tab := tab) i
    refine ⟨k', j', h1, ?_, h2⟩
    have ho := open_outcome tab k o.openOptions path
    generalize hx : o.openOptions.open tab k path = x at ho
    obtain ⟨k1, r1⟩ := x
    simp only at ho
    cases r1 with
    | error e =>
      simp only [OpenJob.step, hx] at h1
      injection h1 with h1; injection h1 with s1 s2
      subst s1 s2
      refine ⟨fun hb => ho.harmless hb _ (fun fd h => by cases h), fun _ => ho.handed'.2, ?_, ?_⟩
      · intro e _ d h; cases h
      · intro mo fd h; injection h with h; cases h
    | ok fd =>
      simp only [OpenJob.step, hx] at h1
      injection h1 with h1; injection h1 with s1 s2
      subst s1 s2
      refine ⟨fun hb => ho.harmless hb _ (fun fd' h => by injection h with h; subst h; rfl),
        fun _ => ho.handed'.2, ?_, ?_⟩
      · intro e h; cases h
      · intro mo fd h; cases h
  | mapping fd mj =>
    obtain ⟨x, i1, i2, i3, i4, k1, i5, i6⟩ := i.mapping fd mj rfl
    obtain ⟨k', mj', h1, h2, h3⟩ := mapjob_step tab i.wf hfit i1 i2
    obtain ⟨a, b, c, d, e, g⟩ := h2.keeps
    have hrank : mj'.rank < mj.rank := by
      rcases h2.rank with h | ⟨r, h⟩
      · exact h
      · exact absurd h (i4 r)
    have hpt : (∀ m, mj' ≠ .done (.ok (some m))) → k'.pt = k.pt := by
      intro hne
      rcases h2.effect with ⟨g, -⟩ | ⟨-, flen, m, p, n, -, g, -⟩
      · exact g.pt
      · exact absurd g (hne m)
    by_cases hd : ∃ r, mj' = .done r
    · obtain ⟨r, hr⟩ := hd
      subst hr
      cases r with
      | error err =>
        refine ⟨k', .abandon fd err, by simp only [OpenJob.step, h1, bind, Except.bind]; rfl,
          ⟨fun _ => h2.harmless i1 _ _, fun _ => hpt (fun m h => by injection h with h; cases h),
            (fun e h => by cases h), fun mo fd h => by cases h⟩,
          h2.wf, a.trans i.page, by rw [e]; exact i.fresh, (fun h => by cases h),
          (fun _ _ h => by cases h), ?_⟩
        intro fd' e' h
        injection h with h _
        subst h
        exact ⟨by omega, _, by rw [b]; exact i1⟩
      | ok mo =>
        refine ⟨k', .done (.ok (mo, fd)), by simp only [OpenJob.step, h1, bind, Except.bind]; rfl,
          ⟨fun _ => h2.harmless i1 _ _, ?_, ?_, ?_⟩,
          h2.wf, a.trans i.page, by rw [e]; exact i.fresh, (fun h => by cases h),
          (fun _ _ h => by cases h), fun _ _ h => by cases h⟩
        · intro hne
          apply hpt
          intro m hm
          injection hm with hm; injection hm with hm
          have := hne m fd (by rw [hm])
          cases this
        · intro e h; injection h with h; cases h
        · intro mo' fd' h _
          injection h with h; injection h with h; injection h with h h'
          subst h h'
          refine ⟨rfl, b, x, i1, h3, ?_⟩
          intro m hm
          subst hm
          rcases h2.effect with ⟨g, g'⟩ | ⟨-, flen, m', p, n, -, g, -, -, -, -, g'⟩
          · exact absurd (g' m rfl) (i4 _)
          · injection g with g; injection g with g; injection g with g
            subst g
            exact ⟨p, n, g'⟩
    · have hstep : OpenJob.step tab t k o path (.mapping fd mj) = .ok (k', .mapping fd mj') := by
        simp only [OpenJob.step, h1, bind, Except.bind]
        cases mj' with
        | done r => exact absurd ⟨r, rfl⟩ hd
        | stat => rfl
        | truncate => rfl
        | resize _ => rfl
        | mmap _ => rfl
      refine ⟨k', .mapping fd mj', hstep,
        ⟨fun _ => h2.harmless i1 _ _, fun _ => hpt (fun m h => hd ⟨_, h⟩),
          (fun e h => by cases h), fun mo fd h => by cases h⟩,
        h2.wf, a.trans i.page, by rw [e]; exact i.fresh, (fun h => by cases h), ?_,
        fun _ _ h => by cases h⟩
      intro fd' mj'' h
      injection h with s1 s2
      subst s1 s2
      exact ⟨x, by rw [b]; exact i1, h3, by omega, fun r h => hd ⟨r, h⟩, k1,
        List.mem_cons_of_mem _ i5, i6⟩
  | abandon fd err =>
    refine ⟨k.close fd, .done (.error err), rfl, ⟨fun _ => ⟨fun _ _ h => h, ?_, rfl, fun _ => .inl rfl,
      fun _ _ => .inl ⟨rfl, rfl⟩⟩, fun _ => rfl, ?_, ?_⟩, i.wf.close fd, i.page, i.fresh,
      (fun h => by cases h), (fun _ _ h => by cases h), fun _ _ h => by cases h⟩
    · intro d hd _
      show (if d = fd then none else k.fds d) = _
      rw [if_neg (fun h => hd (by rw [h]; rfl))]
    · intro e _ d h
      injection h with h
      show (if d = fd then none else k.fds d) = _
      rw [if_pos h.symm]
    · intro mo fd h; injection h with h; cases h
  | done r =>
    exact ⟨k, .done r, rfl, ⟨fun _ => ⟨fun _ _ h => h, fun _ _ _ => rfl, rfl, fun _ => .inl rfl,
      fun _ _ => .inl ⟨rfl, rfl⟩⟩, fun _ => rfl, (fun _ _ _ h => by cases h),
      fun _ _ _ h => absurd rfl h⟩, i.wf, i.page, i.fresh, (fun h => by cases h),
      (fun _ _ h => by cases h), fun _ _ h => by cases h⟩

theorem openrun_inv {tab : SysTable} {t : Target} {o : Options} {path : String} {k0}
    (w : Wf t k0) (hfit : Fits t o) {n h k j}
    (r : OpenRun tab t o path k0 n h k j) : OpenInv t o path k0 n h k j := by
  induction r with
  | start => exact ⟨w, rfl, Nat.le_refl _, fun _ => rfl, (fun _ _ h => by cases h), fun _ _ h => by cases h⟩
  | own before step ih =>
    obtain ⟨k', j', h1, -, h3⟩ := ih.own (tab := tab) hfit
    rw [h1] at step
    injection step with step; injection step with s1 s2
    subst s1 s2
    exact h3
  | other before what ih =>
    refine ⟨what.wf, what.page.trans ih.page, Nat.le_trans ih.fresh what.fresh, ih.start, ?_, ?_⟩
    · intro fd mj h
      obtain ⟨x, i1, i2, i3, i4, k1, i5, i6⟩ := ih.mapping fd mj h
      subst h
      exact ⟨x, by rw [what.fd fd rfl]; exact i1, i2.mono (fun x hx => List.mem_cons_of_mem _ hx),
        i3, i4, k1, List.mem_cons_of_mem _ i5, i6⟩
    · intro fd e h
      obtain ⟨i1, f, i2⟩ := ih.abandon fd e h
      subst h
      exact ⟨i1, f, by rw [what.fd fd rfl]; exact i2⟩

end Vmap

namespace Vmap
open Kernel Spec

/-- Where nobody else changes the file's length: what is known about it at each point. -/
def Quiet (o : Options) (x : Obj) (s0 : Nat) (k : Kernel) : MapJob → Prop
  | .stat => k.size x = s0
  | .truncate => k.size x = s0 ∧ o.truncate = true
  | .resize sz => k.size x = (if o.truncate then 0 else s0) ∧
      sz = newLen o.truncate o.resize s0 ∧
      (∀ n, o.resize = .min n → k.size x < sz) ∧ (∀ n, o.resize = .max n → sz < k.size x)
  | .mmap flen => k.size x = flen ∧ flen = newLen o.truncate o.resize s0
  | .done (.ok none) => k.size x = newLen o.truncate o.resize s0
  | .done (.ok (some m)) => k.size x = newLen o.truncate o.resize s0 ∧ o.offset + m.len ≤ k.size x
  | .done (.error _) => True

theorem Quiet.size {o : Options} {x : Obj} {s0 : Nat} {k k' : Kernel} {j : MapJob}
    (h : Quiet o x s0 k j) (hs : k'.size x = k.size x) : Quiet o x s0 k' j := by
  match j, h with
  | .stat, h => exact hs.trans h
  | .truncate, ⟨h, h'⟩ => exact ⟨hs.trans h, h'⟩
  | .resize _, ⟨h, h', h1, h2⟩ =>
    exact ⟨hs.trans h, h', fun n hn => by rw [hs]; exact h1 n hn, fun n hn => by rw [hs]; exact h2 n hn⟩
  | .mmap _, ⟨h, h'⟩ => exact ⟨hs.trans h, h'⟩
  | .done (.ok none), h => exact hs.trans h
  | .done (.ok (some _)), ⟨h, h'⟩ => exact ⟨hs.trans h, by rw [hs]; exact h'⟩
  | .done (.error _), _ => trivial

theorem afterTruncate_quiet {o : Options} {x : Obj} {s0 : Nat} {k : Kernel} {n : Nat}
    (hn : n = if o.truncate then 0 else s0) (hk : k.size x = n) :
    Quiet o x s0 k (MapJob.afterTruncate o n) := by
  have key : newLen o.truncate o.resize s0 = match o.resize with
      | .exact sz => sz
      | .min sz => Nat.max sz n
      | .max sz => Nat.min sz n
      | .endOf => n := by
    unfold newLen; subst hn; rfl
  unfold MapJob.afterTruncate
  cases hres : o.resize with
  | endOf => rw [hres] at key; exact ⟨hk, by rw [hres]; exact key.symm⟩
  | exact sz =>
    rw [hres] at key
    exact ⟨hk.trans hn, by rw [hres]; exact key.symm, (fun m h => by rw [hres] at h; cases h),
      fun m h => by rw [hres] at h; cases h⟩
  | min sz =>
    rw [hres] at key
    simp only at key
    have e : Nat.max sz n = max sz n := rfl
    simp only
    split
    · exact ⟨hk.trans hn, by rw [hres, key, e]; omega, (fun m h => by omega),
        fun m h => by rw [hres] at h; cases h⟩
    · exact ⟨hk, by rw [hres, key, e]; omega⟩
  | max sz =>
    rw [hres] at key
    simp only at key
    have e : Nat.min sz n = min sz n := rfl
    simp only
    split
    · exact ⟨hk.trans hn, by rw [hres, key, e]; omega, (fun m h => by rw [hres] at h; cases h),
        fun m h => by omega⟩
    · exact ⟨hk, by rw [hres, key, e]; omega⟩

theorem quiet_step (tab : SysTable) {t : Target} {k : Kernel} (w : Wf t k) {o : Options}
    {fd : Nat} (hfit : Fits t o) {f : Fd} (hf : k.fds fd = some f) {s0 : Nat} (hs0 : s0 < t.lim)
    {j j' : MapJob} {k' : Kernel} (hq : Quiet o f.obj s0 k j)
    (h1 : j.step tab t k o fd = .ok (k', j')) : Quiet o f.obj s0 k' j' := by
  have hlim := t.lim_pos
  match j, hq with
  | .stat, hq =>
    have hq : k.size f.obj = s0 := hq
    rcases fstat_cases k fd with ⟨e, he⟩ | ⟨f', hf', he⟩
    · simp only [MapJob.step, File.len, ioErr, he] at h1
      injection h1 with h1; injection h1 with s1 s2
      subst s2; trivial
    · rw [hf] at hf'; injection hf' with hf'; subst hf'
      have hu : asUsize t (k.size f.obj) = s0 := by rw [hq]; exact Nat.mod_eq_of_lt hs0
      simp only [MapJob.step, File.len, ioErr, he, hu] at h1
      split at h1
      · rename_i hc
        injection h1 with h1; injection h1 with s1 s2
        rw [Bool.and_eq_true] at hc
        subst s1 s2
        exact ⟨hq, hc.1⟩
      · rename_i hc
        injection h1 with h1; injection h1 with s1 s2
        subst s1 s2
        refine afterTruncate_quiet ?_ hq
        cases htr : o.truncate with
        | false => simp
        | true =>
          rw [htr] at hc
          simp only [Bool.true_and, decide_eq_true_eq] at hc
          rw [if_pos rfl]; omega
  | .truncate, ⟨hq, htr⟩ =>
    rcases resizeFile_cases tab hf hlim with ⟨k1, e, l, g, -⟩ | ⟨k1, g, -, -, g3, -⟩
    · simp only [MapJob.step, g] at h1
      injection h1 with h1; injection h1 with s1 s2
      subst s2; trivial
    · simp only [MapJob.step, g] at h1
      injection h1 with h1; injection h1 with s1 s2
      subst s1 s2
      exact afterTruncate_quiet (by rw [htr]; rfl) g3.size
  | .resize sz, ⟨hq, hsz, _, _⟩ =>
    have hlt : sz < t.lim := by rw [hsz]; exact newLen_lt hfit hs0
    rcases resizeFile_cases tab hf hlt with ⟨k1, e, l, g, -⟩ | ⟨k1, g, -, -, g3, -⟩
    · simp only [MapJob.step, g] at h1
      injection h1 with h1; injection h1 with s1 s2
      subst s2; trivial
    · simp only [MapJob.step, g] at h1
      injection h1 with h1; injection h1 with s1 s2
      subst s1 s2
      exact ⟨g3.size, hsz⟩
  | .mmap flen, ⟨hq, hfl⟩ =>
    have hlt : flen < t.lim := by rw [hfl]; exact newLen_lt hfit hs0
    rcases mapStep_cases w (fd := fd) hfit hlt with ⟨g1, g⟩ | ⟨g1, e, g⟩ |
      ⟨g1, p, f', g2, g3, g4, g5, g6, g7, g8, g⟩
    · simp only [MapJob.step, g, bind, Except.bind] at h1
      injection h1 with h1; injection h1 with s1 s2
      subst s1 s2
      exact hq.trans hfl
    · simp only [MapJob.step, g, bind, Except.bind] at h1
      injection h1 with h1; injection h1 with s1 s2
      subst s2; trivial
    · simp only [MapJob.step, g, bind, Except.bind] at h1
      injection h1 with h1; injection h1 with s1 s2
      subst s1 s2
      refine ⟨hq.trans hfl, ?_⟩
      have := wanted_le g1
      show o.offset + wanted flen o.offset o.len ≤ k.size f.obj
      omega
  | .done r, hq =>
    injection h1 with h1; injection h1 with s1 s2
    subst s1 s2
    exact hq

theorem maprun_quiet {tab : SysTable} {t : Target} {o : Options} {fd : Nat} {f : Fd} {k0}
    (w : Wf t k0) (hfit : Fits t o) (hf : k0.fds fd = some f) (hs0 : k0.size f.obj < t.lim)
    {n h k j} (r : MapRun tab t o fd (KeepsLength f.obj) k0 n h k j) :
    Quiet o f.obj (k0.size f.obj) k j := by
  induction r with
  | start => exact rfl
  | own before step ih =>
    have i := maprun_inv w hfit hf before
    exact quiet_step tab i.wf hfit i.fd hs0 ih step
  | other before what cond ih => exact ih.size cond

/-- Which steps change the file's length. -/
theorem mapjob_size {tab : SysTable} {t : Target} {k k' : Kernel} (w : Wf t k) {o : Options}
    {fd : Nat} (hfit : Fits t o) {f : Fd} (hf : k.fds fd = some f) {h : List Kernel} {j j' : MapJob}
    (hs : Seen t o f.obj h j) (h1 : j.step tab t k o fd = .ok (k', j')) :
    k'.size f.obj = k.size f.obj ∨ (j = .truncate ∧ k'.size f.obj = 0) ∨
      ∃ sz, j = .resize sz ∧ k'.size f.obj = sz := by
  have hlim := t.lim_pos
  match j, hs with
  | .stat, _ =>
    rcases fstat_cases k fd with ⟨e, he⟩ | ⟨f', hf', he⟩
    · simp only [MapJob.step, File.len, ioErr, he] at h1
      injection h1 with h1; injection h1 with s1 s2
      subst s1; exact .inl rfl
    · simp only [MapJob.step, File.len, ioErr, he] at h1
      split at h1 <;> (injection h1 with h1; injection h1 with s1 s2; subst s1; exact .inl rfl)
  | .truncate, _ =>
    rcases resizeFile_cases tab hf hlim with ⟨k1, e, l, g, -, g2, -⟩ | ⟨k1, g, -, -, g3, -⟩ <;>
      (simp only [MapJob.step, g] at h1; injection h1 with h1; injection h1 with s1 s2; subst s1)
    · exact .inl g2
    · exact .inr (.inl ⟨rfl, g3.size⟩)
  | .resize sz, ⟨k1, hk1, hsz, hres⟩ =>
    have hlt : sz < t.lim := by rw [hsz]; exact newLen_lt hfit (Nat.mod_lt _ hlim)
    rcases resizeFile_cases tab hf hlt with ⟨k1, e, l, g, -, g2, -⟩ | ⟨k1, g, -, -, g3, -⟩ <;>
      (simp only [MapJob.step, g] at h1; injection h1 with h1; injection h1 with s1 s2; subst s1)
    · exact .inl g2
    · exact .inr (.inr ⟨sz, rfl, g3.size⟩)
  | .mmap flen, ⟨k1, hk1, hfl⟩ =>
    have hlt : flen < t.lim := by rw [hfl]; exact newLen_lt hfit (Nat.mod_lt _ hlim)
    rcases mapStep_cases w (fd := fd) hfit hlt with ⟨g1, g⟩ | ⟨g1, e, g⟩ |
      ⟨g1, p, f', g2, g3, g4, g5, g6, g7, g8, g⟩ <;>
      (simp only [MapJob.step, g, bind, Except.bind] at h1
       injection h1 with h1; injection h1 with s1 s2; subst s1; exact .inl rfl)
  | .done r, _ =>
    injection h1 with h1; injection h1 with s1 s2
    subst s1; exact .inl rfl

/-- Truncation is idle on an empty file. -/
theorem mapIf_empty (tab : SysTable) (t : Target) (k : Kernel) (o : Options) (fd : Nat) {f : Fd}
    (hf : k.fds fd = some f) (hs : k.size f.obj = 0) (oo : OpenOptions) (tr : Bool) :
    Options.mapIf tab t k { o with openOptions := oo, truncate := tr } fd = o.mapIf tab t k fd := by
  rcases fstat_cases k fd with ⟨e, he⟩ | ⟨f', hf', he⟩
  · simp only [Options.mapIf, File.len, ioErr, he]
  · rw [hf] at hf'; injection hf' with hf'; subst hf'
    have h0 : asUsize t 0 = 0 := Nat.zero_mod _
    have tr0 : ∀ (o : Options) k, Options.truncateStep tab k o fd 0 = (k, .ok 0) := by
      intro o k
      unfold Options.truncateStep
      rw [if_neg (by simp)]
    simp only [Options.mapIf, File.len, ioErr, he, hs, h0, tr0]
    rfl

end Vmap
