import Verif.Proofs.Map
/- Helper lemmas: what `map_if` leaves alone, for files of every length. -/
namespace Vmap
open Kernel Spec

/-- What every outcome of `map_if` has in common. -/
structure MapIfKeeps (t : Target) (o : Options) (k k' : Kernel) (fd : Nat)
    (r : Result (Option MapMut)) : Prop where
  wf : Wf t k'
  fds : k'.fds = k.fds
  names : k'.names = k.names
  disk : k'.disk = k.disk
  page : k'.page = k.page
  fresh : k'.fresh = k.fresh
  nextFd : k'.nextFd = k.nextFd
  pt : (∀ m, r ≠ .ok (some m)) → k'.pt = k.pt
  files : ∀ o', (∀ f, k.fds fd = some f → o' ≠ f.obj) →
    k'.size o' = k.size o' ∧ k'.data o' = k.data o'
  log : ∃ l, k'.log = l ++ k.log ∧ ∀ ev, ev ∈ l →
    (ev.call = .fstat fd ∨ ∃ n, ev.call = .ftruncate fd n) ∨
    ∃ flen, InRange flen o.offset o.len ∧ ev.call = mapCall k o fd flen ∧
      ∀ m, r = .ok (some m) → m.len = wanted flen o.offset o.len
  made : ∀ m, r = .ok (some m) → ∃ f p n, k.fds fd = some f ∧ f.canRead = true ∧
    (sharedOf o.protect = true → (protOf o.protect).w = true → f.canWrite = true) ∧
    o.offset + m.len ≤ k'.size f.obj ∧
    Created t k k' m.ptr m.len f.obj o.offset (sharedOf o.protect)
      (!sharedOf o.protect || f.canWrite) (protOf o.protect) p n

theorem MapIfKeeps.of_only {t : Target} {o : Options} {k k' : Kernel} {fd r} {f : Fd} (w : Wf t k)
    (hf : k.fds fd = some f) (h : OnlyFile k k' f.obj) (hr : ∀ m, r ≠ .ok (some m))
    {l : List Event} (hlog : k'.log = l ++ k.log) (hl : LengthCalls fd l) :
    MapIfKeeps t o k k' fd r where
  wf := h.wf w
  fds := h.fds
  names := h.names
  disk := h.disk
  page := h.page
  fresh := h.fresh
  nextFd := h.nextFd
  pt := fun _ => h.pt
  files := fun o' ho => ⟨h.size o' (ho f hf), h.data o' (ho f hf)⟩
  log := ⟨l, hlog, fun ev hev => .inl (hl ev hev)⟩
  made := fun m hm => absurd hm (hr m)

/-- A step of `map_if` that only asks for or sets the length of the file. -/
structure LenStep (t : Target) (k k' : Kernel) (fd : Nat) (f : Fd) (r : Result Nat) : Prop where
  only : OnlyFile k k' f.obj
  log : ∃ l, k'.log = l ++ k.log ∧ LengthCalls fd l
  ok : ∀ n, r = .ok n → n < t.lim ∧ n ≤ k'.size f.obj

theorem LenStep.trans {t : Target} {a b c : Kernel} {fd f r r'} (h : LenStep t a b fd f r)
    (h' : LenStep t b c fd f r') : LenStep t a c fd f r' where
  only := h.only.trans h'.only
  log := by
    obtain ⟨l, h1, h2⟩ := h.log
    obtain ⟨l', h3, h4⟩ := h'.log
    exact ⟨l' ++ l, by rw [h3, h1, List.append_assoc], h4.append h2⟩
  ok := h'.ok

theorem LenStep.same {t : Target} {k : Kernel} {fd f n} (h1 : n < t.lim) (h2 : n ≤ k.size f.obj) :
    LenStep t k k fd f (.ok n) where
  only := OnlyFile.refl _ _
  log := ⟨[], rfl, LengthCalls.nil⟩
  ok := fun m h => by injection h with h; omega

theorem resizeFile_step (tab : SysTable) {t : Target} {k : Kernel} {fd : Nat}
    {f : Fd} (hf : k.fds fd = some f) {sz : Nat} (hs : sz < t.lim) :
    LenStep t k (Options.resizeFile tab k fd sz).1 fd f (Options.resizeFile tab k fd sz).2 := by
  rcases resizeFile_cases tab hf hs with ⟨k1, e, l, h1, h2, -, -, h3, h4, -⟩ |
    ⟨k1, h1, h2, -, h3, -, h4⟩
  · rw [h1]; exact ⟨h2, ⟨l, h3, h4⟩, fun n h => by cases h⟩
  · rw [h1]
    exact ⟨h2, ⟨_, h4, LengthCalls.one_trunc⟩, fun n h => by
      injection h with h; have := h3.size; dsimp only; omega⟩

theorem truncateStep_step (tab : SysTable) {t : Target} {k : Kernel} {o : Options} {fd : Nat}
    {f : Fd} (hf : k.fds fd = some f) {flen : Nat} (hl : flen < t.lim) (hs : flen ≤ k.size f.obj) :
    LenStep t k (Options.truncateStep tab k o fd flen).1 fd f
      (Options.truncateStep tab k o fd flen).2 := by
  unfold Options.truncateStep
  split
  · exact resizeFile_step tab hf t.lim_pos
  · exact .same hl hs

theorem resizeStep_step (tab : SysTable) {t : Target} {k : Kernel} {o : Options} {fd : Nat}
    {f : Fd} (hf : k.fds fd = some f) (hfit : Fits t o) {flen : Nat} (hl : flen < t.lim)
    (hs : flen ≤ k.size f.obj) :
    LenStep t k (Options.resizeStep tab k o fd flen).1 fd f
      (Options.resizeStep tab k o fd flen).2 := by
  have hr := hfit.resize
  unfold Options.resizeStep
  cases hres : o.resize with
  | endOf => exact .same hl hs
  | exact sz => rw [hres] at hr; exact resizeFile_step tab hf hr
  | min sz =>
    rw [hres] at hr
    simp only
    split
    · exact resizeFile_step tab hf hr
    · exact .same hl hs
  | max sz =>
    rw [hres] at hr
    simp only
    split
    · exact resizeFile_step tab hf hr
    · exact .same hl hs

/-- `map_if` never panics, and whatever it does: -/
theorem mapIf_keeps (tab : SysTable) {t : Target} {k : Kernel} (w : Wf t k) {o : Options}
    {fd : Nat} (hfit : Fits t o) :
    ∃ k' r, o.mapIf tab t k fd = .ok (k', r) ∧ MapIfKeeps t o k k' fd r := by
  rcases fstat_cases k fd with ⟨e, he⟩ | ⟨f, hf, he⟩
  · refine ⟨_, _, by simp only [Options.mapIf, File.len, ioErr, he]; rfl, ?_⟩
    exact ⟨w.same rfl rfl rfl rfl rfl rfl, rfl, rfl, rfl, rfl, rfl, rfl, fun _ => rfl,
      fun _ _ => ⟨rfl, rfl⟩, ⟨_, rfl, fun ev hev => .inl (LengthCalls.one_stat ev hev)⟩,
      fun m h => by cases h⟩
  · obtain ⟨k1, hk1⟩ : ∃ k1, k1 = (k.fstatLen fd).1 := ⟨_, rfl⟩
    have he' : k.fstatLen fd = (k1, .ok (k.size f.obj)) := by rw [hk1, he]
    rw [he] at hk1
    simp only at hk1
    have hlt : asUsize t (k.size f.obj) < t.lim := Nat.mod_lt _ t.lim_pos
    have o1 : LenStep t k k1 fd f (.ok (asUsize t (k.size f.obj))) := by
      subst hk1
      refine ⟨by constructor <;> intros <;> rfl, ⟨_, rfl, LengthCalls.one_stat⟩, ?_⟩
      intro n h
      injection h with h
      have : asUsize t (k.size f.obj) ≤ k.size f.obj := Nat.mod_le _ _
      dsimp only
      omega
    clear hk1 he
    have o2 := o1.trans (truncateStep_step tab (o := o) (by rw [o1.only.fds]; exact hf) hlt
      (o1.ok _ rfl).2)
    generalize hx2 : Options.truncateStep tab k1 o fd (asUsize t (k.size f.obj)) = x2 at o2
    obtain ⟨k2, r2⟩ := x2
    simp only at o2
    cases r2 with
    | error e =>
      obtain ⟨l, l1, l2⟩ := o2.log
      exact ⟨k2, .error e, by simp only [Options.mapIf, File.len, ioErr, he', hx2]; rfl,
        .of_only w hf o2.only (fun m h => by cases h) l1 l2⟩
    | ok n2 =>
      have o3 := o2.trans (resizeStep_step tab (o := o) (by rw [o2.only.fds]; exact hf) hfit
        (o2.ok _ rfl).1 (o2.ok _ rfl).2)
      generalize hx3 : Options.resizeStep tab k2 o fd n2 = x3 at o3
      obtain ⟨k3, r3⟩ := x3
      simp only at o3
      obtain ⟨l, l1, l2⟩ := o3.log
      cases r3 with
      | error e =>
        exact ⟨k3, .error e, by simp only [Options.mapIf, File.len, ioErr, he', hx2, hx3]; rfl,
          .of_only w hf o3.only (fun m h => by cases h) l1 l2⟩
      | ok n3 =>
        have hm : o.mapIf tab t k fd = o.mapStep t k3 fd n3 := by
          simp only [Options.mapIf, File.len, ioErr, he', hx2, hx3]
        have w3 := o3.only.wf w
        obtain ⟨s1, s2⟩ := o3.ok n3 rfl
        have o3 := o3.only
        have hcall : mapCall k3 o fd n3 = mapCall k o fd n3 := by simp only [mapCall, o3.page]
        rcases mapStep_cases w3 (fd := fd) hfit s1 with ⟨-, g⟩ | ⟨g1, e, g⟩ |
          ⟨g1, p, f', g2, g3, g4, g5, g6, g7, g8, g⟩
        · exact ⟨_, _, hm.trans g, .of_only w hf o3 (fun m h => by injection h with h; cases h)
            l1 l2⟩
        · refine ⟨_, _, hm.trans g, w3.same rfl rfl rfl rfl rfl rfl, o3.fds, o3.names, o3.disk,
            o3.page, o3.fresh, o3.nextFd, fun _ => o3.pt,
            fun o' ho => ⟨o3.size o' (ho f hf), o3.data o' (ho f hf)⟩, ?_, fun m h => by cases h⟩
          refine ⟨⟨mapCall k o fd n3, .error e⟩ :: l, ?_, fun ev hev => ?_⟩
          · simp only [hcall, l1, List.cons_append]
          · rcases List.mem_cons.mp hev with h | h
            · exact .inr ⟨n3, g1, by rw [h], fun m h => by cases h⟩
            · exact .inl (l2 ev h)
        · have hff : f' = f := by
            rw [o3.fds, hf] at g6; injection g6 with g6; exact g6.symm
          have hpp := w.page_pos
          have hw := wanted_le g1
          have hdm := Nat.div_add_mod o.offset k.page
          rw [Nat.mul_comm] at hdm
          refine ⟨_, _, hm.trans g, ?_⟩
          constructor
          · exact w3.mapped rfl rfl rfl rfl (Nat.le_refl _) rfl (w3.fds fd f' g6).1 (w3.fd_ne g6)
              g3 g4
          · exact o3.fds
          · exact o3.names
          · exact o3.disk
          · exact o3.page
          · exact o3.fresh
          · exact o3.nextFd
          · intro h; exact absurd rfl (h _)
          · intro o' ho; exact ⟨o3.size o' (ho f hf), o3.data o' (ho f hf)⟩
          · refine ⟨⟨mapCall k o fd n3, .ok (p * k3.page)⟩ :: l, ?_, fun ev hev => ?_⟩
            · simp only [hcall, l1, List.cons_append]
            · rcases List.mem_cons.mp hev with h | h
              · refine .inr ⟨n3, g1, by rw [h], fun m h => ?_⟩
                injection h with h; injection h with h; rw [← h]
              · exact .inl (l2 ev h)
          · intro m h
            injection h with h; injection h with h
            subst h hff
            have := created_of_mapped (t := t) (k := k3) (p := p) (o := f'.obj)
              (idx := o.offset / k3.page) (prot := protOf o.protect) (sh := sharedOf o.protect)
              (mw := !sharedOf o.protect || f'.canWrite) (d := o.offset % k3.page)
              (len := wanted n3 o.offset o.len)
              (k' := { k3 with
                pt := mappedPt k3.pt p (k3.pages (wanted n3 o.offset o.len + o.offset % k3.page))
                  f'.obj (o.offset / k3.page) (protOf o.protect) (sharedOf o.protect)
                  (!sharedOf o.protect || f'.canWrite)
                tick := k3.tick + 1
                log := ⟨mapCall k3 o fd n3, .ok (p * k3.page)⟩ :: k3.log })
              w3.page_pos rfl g3 (Nat.mod_lt _ w3.page_pos) g2 g4 g5 rfl
              (by dsimp only; rw [o3.page]; omega)
            rw [show o.offset / k3.page * k3.page + o.offset % k3.page = o.offset by
              rw [o3.page]; exact hdm] at this
            refine ⟨f', p, k3.pages (wanted n3 o.offset o.len + o.offset % k3.page), hf, g7, g8, ?_, ?_⟩
            · dsimp only; omega
            · exact ⟨by rw [← o3.page]; exact this.pages,
                fun q a b => by rw [← o3.pt]; exact this.free q a b,
                this.mapped, fun q hq => by rw [← o3.pt]; exact this.others q hq, this.maps⟩

end Vmap
