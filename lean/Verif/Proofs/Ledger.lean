import Verif.Spec.Ledger
import Verif.Proofs.Settings
/- Helper lemmas: descriptors and names in the course of a whole program. -/
namespace Vmap
open Kernel Spec

/-- The same descriptors and the same names. -/
def SameTables (k k' : Kernel) : Prop := k'.fds = k.fds ∧ k'.names = k.names

section
variable {tab : SysTable} {t : Target} {k0 : Kernel} {w w' : World}

theorem step_files (v : w.Inv t k0) {op : Op} (sane : op.Sane t w) (st : w.step tab t op = .ok w')
    (noopen : ∀ o path, op ≠ .openIf o path) (noclose : ∀ fd, op ≠ .close fd) :
    SameTables w.k w'.k := by
  have hu := v.wf.page_pos
  have triv : ∀ {w2 : World}, (Except.ok w : Exec World) = .ok w2 → SameTables w.k w2.k := by
    intro w2 h; injection h with h; subst h; exact ⟨rfl, rfl⟩
  have range : ∀ {i off len : Nat} {o : Operation} (sys : Nat → Nat → Kernel × Result Unit),
      off + len < t.lim → w.onMap i (fun m => rangeOp t w.k m off len o sys) = .ok w' →
      (∀ P N, ∃ k' r, sys (P * w.k.page) (N * w.k.page) = (k', r) ∧ OnlyRange w.k k' P N) →
      SameTables w.k w'.k := by
    intro i off len o sys hl st hs
    unfold World.onMap at st
    cases hm : w.held i with
    | none => rw [hm] at st; exact triv st
    | some h =>
      rw [hm] at st
      cases h with
      | ring r n => exact triv st
      | inf r n => exact triv st
      | map m =>
        obtain ⟨p, n, g⟩ := v.live i _ hm
        dsimp only at st
        by_cases hin : off + len ≤ m.len
        · rw [rangeOp_in v.wf g.pages hin] at st
          obtain ⟨k', r, e1, e2⟩ := hs (pg w.k (m.ptr + off)) (npg w.k (m.ptr + off) len)
          rw [e1] at st
          injection st with st
          subst st
          exact ⟨e2.fds, e2.names⟩
        · rw [rangeOp_out (by omega) hl] at st
          exact triv st
  have conv : ∀ {P N : Nat} {k1 : Kernel} {r : Result Unit},
      Unix.protect w.k (P * w.k.page) (N * w.k.page) .readWrite = (k1, r) → SameTables w.k k1 := by
    intro P N k1 r h
    obtain ⟨k2, r2, h1, -, h2, -⟩ := protect_fx w.k hu P N
    rw [h] at h1
    injection h1 with a b
    subst a
    exact ⟨h2.fds, h2.names⟩
  cases op with
  | openIf o path => exact absurd rfl (noopen o path)
  | close fd => exact absurd rfl (noclose fd)
  | mapIf o fd =>
    obtain ⟨k', r, h1, g⟩ := mapIf_keeps tab v.wf sane (fd := fd)
    simp only [World.step, h1, bind, Except.bind, pure, Except.pure] at st
    have : w'.k = k' := by
      split at st <;> (injection st with st; subst st; rename_i h; injection h with h; subst h; rfl)
    rw [this]; exact ⟨g.fds, g.names⟩
  | alloc o =>
    obtain ⟨len, -, hc, -⟩ := alloc_cases v.wf o sane
    rcases hc with ⟨e, he⟩ | ⟨p, k2, -, -, hne, hfit, hk, wf', cr, he⟩
    · simp only [World.step, he, bind, Except.bind, pure, Except.pure] at st
      injection st with st; subst st; exact ⟨rfl, rfl⟩
    · simp only [World.step, he, bind, Except.bind, pure, Except.pure] at st
      injection st with st; subst st
      exact ⟨by show k2.fds = _; rw [hk]; rfl, by show k2.names = _; rw [hk]; rfl⟩
  | pwrite fd i b =>
    simp only [World.step] at st
    split at st
    · injection st with st; subst st; exact ⟨rfl, rfl⟩
    · exact triv st
  | writeBack sel => injection st with st; subst st; exact ⟨rfl, rfl⟩
  | newRing hint =>
    obtain ⟨k', r, e, h1, h2⟩ := Ring.make_good v.wf (show RingFits t w.k hint from sane)
    simp only [World.step, e, bind, Except.bind, pure, Except.pure] at st
    cases r with
    | error err =>
      injection st with st; subst st
      exact ⟨(h1 err rfl).1.fds, (h1 err rfl).1.names⟩
    | ok r =>
      injection st with st; subst st
      exact ⟨(h2 r rfl).1.fds, (h2 r rfl).1.keeps.names⟩
  | newInf hint =>
    obtain ⟨k', r, e, h1, h2⟩ := InfiniteRing.make_good v.wf (show RingFits t w.k hint from sane)
    simp only [World.step, e, bind, Except.bind, pure, Except.pure] at st
    cases r with
    | error err =>
      injection st with st; subst st
      exact ⟨(h1 err rfl).1.fds, (h1 err rfl).1.names⟩
    | ok r =>
      injection st with st; subst st
      exact ⟨(h2 r rfl).1.fds, (h2 r rfl).1.keeps.names⟩
  | drop i =>
    simp only [World.step] at st
    cases hi : w.held i with
    | none => rw [hi] at st; exact triv st
    | some h =>
      rw [hi] at st
      cases h with
      | ring r n =>
        obtain ⟨h1, -⟩ := v.live i _ hi
        obtain ⟨k', h3, h4⟩ := C27_ring_drop t w.k r n h1
        simp only [h3, bind, Except.bind, pure, Except.pure] at st
        injection st with st; subst st; exact ⟨h4.fds, h4.keeps.names⟩
      | inf r n =>
        obtain ⟨h1, -⟩ := v.live i _ hi
        obtain ⟨k', h3, h4⟩ := C27_infinite_drop t w.k r n h1
        simp only [h3, bind, Except.bind, pure, Except.pure] at st
        injection st with st; subst st; exact ⟨h4.fds, h4.keeps.names⟩
      | map m =>
        obtain ⟨p, n, g⟩ := v.live i _ hi
        by_cases h0 : 0 < m.len
        · simp only [drop_eq v.wf.page g.pages h0, bind, Except.bind, pure, Except.pure] at st
          injection st with st; subst st; exact ⟨rfl, rfl⟩
        · simp only [MapMut.drop, if_neg h0, bind, Except.bind, pure, Except.pure] at st
          injection st with st; subst st; exact ⟨rfl, rfl⟩
  | flush i off len mode =>
    refine range (fun p l => Unix.flush w.k p l mode) sane st (fun P N => ?_)
    obtain ⟨k', r, h1, -, h2, -⟩ := flush_fx w.k hu P N mode
    exact ⟨k', r, h1, h2⟩
  | advise i off len adv =>
    refine range (fun p l => Unix.advise w.k p l adv) sane st (fun P N => ?_)
    obtain ⟨k', r, h1, -, h2, -⟩ := advise_fx w.k hu P N adv
    exact ⟨k', r, h1, h2⟩
  | lock i off len =>
    refine range (fun p l => Unix.lock w.k p l) sane st (fun P N => ?_)
    obtain ⟨k', r, h1, -, h2, -⟩ := mlock_fx w.k hu P N true .lock
    exact ⟨k', r, h1, h2⟩
  | unlock i off len =>
    refine range (fun p l => Unix.unlock w.k p l) sane st (fun P N => ?_)
    obtain ⟨k', r, h1, -, h2, -⟩ := mlock_fx w.k hu P N false .unlock
    exact ⟨k', r, h1, h2⟩
  | intoMapMut i =>
    simp only [World.step, World.onMap] at st
    cases hi : w.held i with
    | none => rw [hi] at st; exact triv st
    | some h =>
      rw [hi] at st
      cases h with
      | ring r n => exact triv st
      | inf r n => exact triv st
      | map m =>
        obtain ⟨p, n, g⟩ := v.live i _ hi
        cases hx : Unix.protect w.k (p * w.k.page) (n * w.k.page) .readWrite with
        | mk k1 r1 =>
          simp only [Map.intoMapMut, whole_bounds v.wf g.pages, hx, bind, Except.bind, pure,
            Except.pure] at st
          cases r1 <;> (injection st with st; subst st; exact conv hx)
  | intoMap i =>
    simp only [World.step, World.onMap] at st
    cases hi : w.held i with
    | none => rw [hi] at st; exact triv st
    | some h =>
      rw [hi] at st
      cases h with
      | ring r n => exact triv st
      | inf r n => exact triv st
      | map m =>
        obtain ⟨p, n, g⟩ := v.live i _ hi
        cases hx : Unix.protect w.k (p * w.k.page) (n * w.k.page) .readWrite with
        | mk k1 r1 =>
          simp only [MapMut.intoMap, whole_bounds v.wf g.pages, hx, bind, Except.bind, pure,
            Except.pure] at st
          cases r1 <;> (injection st with st; subst st; exact conv hx)
  | set i idx b =>
    cases hi : w.held i with
    | none => simp only [World.step, World.onMap, hi] at st; exact triv st
    | some h =>
      cases h with
      | ring r n => simp only [World.step, World.onMap, hi] at st; exact triv st
      | inf r n => simp only [World.step, World.onMap, hi] at st; exact triv st
      | map m =>
        obtain ⟨-, k', rfl, hst⟩ := set_fx hi st
        obtain ⟨-, -, sf⟩ := store_effect (U := noPage) v.wf hst (S := fun _ => True) trivial
        exact ⟨sf.fds, sf.names⟩
  | ringOp i op =>
    simp only [World.step] at st
    cases hi : w.held i with
    | none => rw [hi] at st; exact triv st
    | some h =>
      rw [hi] at st
      cases h with
      | map m => exact triv st
      | inf r n => exact triv st
      | ring r n =>
        obtain ⟨h1, cl⟩ := v.live i _ hi
        obtain ⟨o, s, a1, a2, a3, a4⟩ := h1.inv
        have hw := a1.writeLen_eq
        have sane := sane r n _ hi hw
        have ht : (s.step op).1.total = passed op n s.spare.length := by
          cases op <;> simp [Win.step, passed, a2]
        obtain ⟨k1, r1, e, -, p1, p2, sd, d⟩ := ring_step a1 op (by rw [ht]; exact sane)
        simp only [hw, e, bind, Except.bind, pure, Except.pure] at st
        injection st with st; subst st; exact ⟨sd.fds, sd.names⟩
  | infOp i op =>
    simp only [World.step] at st
    cases hi : w.held i with
    | none => rw [hi] at st; exact triv st
    | some h =>
      rw [hi] at st
      cases h with
      | map m => exact triv st
      | ring r n => exact triv st
      | inf r n =>
        obtain ⟨h1, cl⟩ := v.live i _ hi
        obtain ⟨o, s, a1, a2, a3, a4⟩ := h1.inv
        have hw : r.writeLen t = .ok r.len := rfl
        obtain ⟨s1, s2, s3⟩ := sane r n _ hi hw
        have ht : (s.step op).1.total = passed op n r.len := by
          cases op <;> simp [Lossy.step, passed, a2, ← a1.all_len, Lossy.append]
          exact absurd rfl s1
        obtain ⟨k1, r1, e, -, p1, p2, sd, d⟩ := inf_step a1 op (by rw [ht]; exact s2) s3
        simp only [hw, e, bind, Except.bind, pure, Except.pure] at st
        injection st with st; subst st; exact ⟨sd.fds, sd.names⟩
  | infAll i bs =>
    simp only [World.step] at st
    cases hi : w.held i with
    | none => rw [hi] at st; exact triv st
    | some h =>
      rw [hi] at st
      cases h with
      | map m => exact triv st
      | ring r n => exact triv st
      | inf r n =>
        obtain ⟨h1, cl⟩ := v.live i _ hi
        obtain ⟨o, s, a1, a2, a3, a4⟩ := h1.inv
        have sane := sane r n hi
        obtain ⟨k1, r1, e, -, p1, p2, sd, d⟩ := inf_writeAll a1 bs (by rw [a1.total, a2]; exact sane)
        simp only [e, bind, Except.bind, pure, Except.pure] at st
        injection st with st; subst st; exact ⟨sd.fds, sd.names⟩

/-- What `open_if` does to descriptors and names. -/
theorem openIf_files (v : w.Inv t k0) {o : Options} (fits : Fits t o) {path : String} {k1 : Kernel}
    {r : Result (Option MapMut × Nat)} (call : o.openIf tab t w.k path = .ok (k1, r)) :
    (∀ w', w.step tab t (.openIf o path) = .ok w' → w'.k = k1) ∧
    (k1.names = w.k.names ∨ (w.k.names path = none ∧
      (o.openOptions.create = true ∨ o.openOptions.createNew = true) ∧ o.openOptions.write = true ∧
      ∃ x, w.k.fresh ≤ x ∧ k1.names = fun n => if n = path then some x else w.k.names n)) ∧
    (∀ err, r = .error err → k1.fds = w.k.fds) ∧
    (∀ x fd, r = .ok (x, fd) → w.k.fds fd = none ∧ ∃ f : Fd, k1.names path = some f.obj ∧
      f.canRead = true ∧ f.canWrite = o.openOptions.write ∧
      k1.fds = fun d => if d = fd then some f else w.k.fds d) := by
  refine ⟨?_, ?_⟩
  · intro w' st
    simp only [World.step, call, bind, Except.bind, pure, Except.pure] at st
    split at st <;> (injection st with st; subst st; rename_i h; injection h with h; subst h; rfl)
  have ho := open_outcome tab w.k o.openOptions path
  generalize hx : o.openOptions.open tab w.k path = x at ho
  obtain ⟨k2, r2⟩ := x
  simp only at ho
  have w2 := ho.wf v.wf
  have hnone : w.k.fds w.k.nextFd = none := by
    cases hn : w.k.fds w.k.nextFd with
    | none => rfl
    | some f => have := (v.wf.fds _ _ hn).2; omega
  cases r2 with
  | error e =>
    simp only [Options.openIf, hx, pure, Except.pure] at call
    obtain ⟨rfl, rfl⟩ := ok_pair call
    clear hx
    cases ho with
    | refused => exact ⟨.inl rfl, fun _ _ => rfl, fun _ _ h => by cases h⟩
    | failed => exact ⟨.inl rfl, fun _ _ => rfl, fun _ _ h => by cases h⟩
  | ok fd =>
    obtain ⟨k3, r3, h1, g⟩ := mapIf_keeps tab w2 fits (fd := fd)
    simp only [Options.openIf, hx, h1, bind, Except.bind, pure, Except.pure] at call
    clear hx
    have hnm : k2.names = w.k.names ∨ (w.k.names path = none ∧
      (o.openOptions.create = true ∨ o.openOptions.createNew = true) ∧ o.openOptions.write = true ∧
      ∃ x, w.k.fresh ≤ x ∧ k2.names = fun n => if n = path then some x else w.k.names n) := by
      cases ho with
      | existing _ _ _ _ _ st => left; rw [st]
      | created a b c => exact .inr ⟨a, b, c, w.k.fresh, Nat.le_refl _, rfl⟩
    have hfd : fd = w.k.nextFd ∧ ∃ f : Fd, k2.names path = some f.obj ∧ f.canRead = true ∧
        f.canWrite = o.openOptions.write ∧ k2.fds = fun d => if d = w.k.nextFd then some f else w.k.fds d := by
      cases ho with
      | existing x hn _ _ _ st => exact ⟨rfl, ⟨_, true, _⟩, by rw [st]; assumption, rfl, rfl, by rw [st]⟩
      | created a b c =>
        exact ⟨rfl, ⟨w.k.fresh, true, o.openOptions.write⟩, if_pos rfl, rfl, rfl, rfl⟩
    obtain ⟨rfl, f, f1, f2, f3, f4⟩ := hfd
    cases r3 with
    | error e =>
      obtain ⟨rfl, rfl⟩ := ok_pair call
      refine ⟨?_, fun _ _ => ?_, fun _ _ h => (by cases h)⟩
      · have : (k3.close w.k.nextFd).names = k2.names := g.names
        rw [this]; exact hnm
      · funext d
        show (if d = w.k.nextFd then none else k3.fds d) = _
        rw [g.fds, f4]
        by_cases hd : d = w.k.nextFd
        · rw [if_pos hd, hd, hnone]
        · rw [if_neg hd]; exact if_neg hd
    | ok x =>
      obtain ⟨rfl, rfl⟩ := ok_pair call
      refine ⟨by rw [g.names]; exact hnm, fun _ h => (by cases h), fun x fd h => ?_⟩
      injection h with h
      injection h with h h'
      subst h'
      exact ⟨hnone, f, by rw [g.names]; exact f1, f2, f3, by rw [g.fds, f4]⟩

theorem Ledger.inv (wf : Wf t k0) {F : Nat → Option Fd} (h : Ledger tab t k0 w F) :
    Reach tab t k0 w ∧ w.k.fds = F := by
  induction h with
  | start => exact ⟨.start, rfl⟩
  | opened before fits call step file read write ih =>
    obtain ⟨r, e⟩ := ih
    obtain ⟨h1, -, -, h4⟩ := openIf_files (r.inv wf) fits call
    obtain ⟨-, f, g1, g2, g3, g4⟩ := h4 _ _ rfl
    refine ⟨.step (op := .openIf _ _) r fits step, ?_⟩
    rw [h1 _ step, g4, e]
    rename_i f0
    have hf : f = f0 := by
      rw [file] at g1
      injection g1 with g1
      cases f; cases f0; simp_all
    rw [hf]
  | closed before step ih =>
    obtain ⟨r, e⟩ := ih
    refine ⟨.step (op := .close _) r trivial step, ?_⟩
    injection step with step
    subst step
    rw [← e]; rfl
  | failed before fits call step ih =>
    obtain ⟨r, e⟩ := ih
    obtain ⟨h1, -, h3, -⟩ := openIf_files (r.inv wf) fits call
    exact ⟨.step (op := .openIf _ _) r fits step, by rw [h1 _ step, h3 _ rfl, e]⟩
  | other before sane step no nc ih =>
    obtain ⟨r, e⟩ := ih
    exact ⟨.step r sane step, by rw [(step_files (r.inv wf) sane step no nc).1, e]⟩

end
end Vmap
