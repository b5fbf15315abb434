import Verif.Proofs.Calls
import Verif.Props.BufWorld
/-
C137: the system calls each function makes.
-/
namespace Vmap
open Kernel Spec

section
variable {tab : SysTable} {t : Target} {k0 : Kernel} {w w' : World}

/-- C137: whatever a program has done before, each step makes the system calls its kind allows, with
those arguments and in that order, and no others; in particular reading and writing maps and
all calls on rings make none. -/
theorem C137_calls (wf : Wf t k0) (reach : Reach tab t k0 w) {op : Op} (sane : op.Sane t w)
    (step : w.step tab t op = .ok w') : ∃ es, Did w.k w'.k es ∧ op.Makes w w' es := by
  have v := reach.inv wf
  have noMap : ∀ {i : Nat} {P : MapMut → Prop} {es : List Event}, (∀ m, w.held i ≠ some (.map m)) →
      es = [] → (match w.held i with | some (.map m) => P m | _ => es = []) := by
    intro i P es h he
    split
    · exact absurd ‹_› (h _)
    · exact he
  cases op with
  | mapIf o fd =>
    simp only [World.step, bind, Except.bind] at step
    cases hm : o.mapIf tab t w.k fd with
    | error e => rw [hm] at step; cases step
    | ok x =>
      obtain ⟨k', r⟩ := x
      obtain ⟨es, d, fc, mp⟩ := mapIf_did tab o sane fd hm
      rw [hm] at step
      rcases r with e | (_ | m)
      · injection step with step
        subst step
        exact ⟨es, d, fc, fun h => absurd rfl h⟩
      · injection step with step
        subst step
        exact ⟨es, d, fc, fun h => absurd rfl h⟩
      · injection step with step
        subst step
        exact ⟨es, d, fc, fun _ => mp m rfl⟩
  | alloc o =>
    simp only [World.step, bind, Except.bind] at step
    cases hm : o.alloc t w.k with
    | error e => rw [hm] at step; cases step
    | ok x =>
      obtain ⟨k', r⟩ := x
      obtain ⟨c, u, pm, d, ok⟩ := alloc_did o hm
      rw [hm] at step
      rcases r with e | m
      · injection step with step
        subst step
        exact ⟨_, d, ⟨c, pm, rfl⟩, fun h => absurd rfl h⟩
      · injection step with step
        subst step
        obtain ⟨p, rfl⟩ := ok m rfl
        obtain ⟨n, prot, flags, off, hf, hc⟩ := pm
        exact ⟨_, d, ⟨c, ⟨n, prot, flags, off, hf, hc⟩, rfl⟩,
          fun _ => ⟨.one, c, n, prot, flags, none, off, rfl, hc⟩⟩
  | openIf o path =>
    simp only [World.step, Options.openIf, bind, Except.bind] at step
    rcases ho : o.openOptions.open tab w.k path with ⟨k1, e | fd⟩
    · rw [ho] at step
      injection step with step
      subst step
      rcases open_did tab _ path ho with ⟨x, -, d⟩ | ⟨e, x, -, d⟩ | ⟨n, h, -⟩
      · exact ⟨_, d, fun h => absurd rfl h, .inl rfl⟩
      · exact ⟨_, d, fun h => absurd rfl h, .inr (.inl ⟨e, rfl⟩)⟩
      · cases h
    · rcases open_did tab _ path ho with ⟨x, h, -⟩ | ⟨e, x, h, -⟩ | ⟨fd', h, d1⟩
      · cases h
      · cases h
      injection h with h
      subst h
      rw [ho] at step
      dsimp only at step
      cases hm : o.mapIf tab t k1 fd with
      | error e => rw [hm] at step; cases step
      | ok x =>
        obtain ⟨k', r⟩ := x
        obtain ⟨es, d, fc, mp⟩ := mapIf_did tab o sane fd hm
        rw [hm] at step
        rcases r with e | (_ | m)
        · injection step with step
          subst step
          exact ⟨_, (d1.trans d).trans (close_did fd), fun h => absurd rfl h,
            .inr (.inr ⟨fd, es, fc, .inr ⟨rfl, rfl⟩⟩)⟩
        · injection step with step
          subst step
          exact ⟨_, d1.trans d, fun h => absurd rfl h, .inr (.inr ⟨fd, es, fc, .inl rfl⟩)⟩
        · injection step with step
          subst step
          obtain ⟨ok, c, n, prot, flags, f, off, hl, hc⟩ := mp m rfl
          refine ⟨_, d1.trans d, fun _ => ⟨AllOk.one.append ok, c, n, prot, flags, f, off, ?_, hc⟩,
            .inr (.inr ⟨fd, es, fc, .inl rfl⟩)⟩
          rw [calls_append, List.getLast?_append, hl]; rfl
  | close fd =>
    injection step with step
    subst step
    exact ⟨_, close_did fd, rfl⟩
  | pwrite fd i b =>
    simp only [World.step] at step
    split at step
    · injection step with step
      subst step
      exact ⟨[], rfl, rfl⟩
    · injection step with step
      subst step
      exact ⟨[], rfl, rfl⟩
  | newRing hint =>
    simp only [World.step, Ring.make, bind, Except.bind] at step
    cases hr : (Size.withSize (Unix.systemInfo w.k).2).round t hint with
    | error e => rw [hr] at step; cases step
    | ok len =>
      rw [hr] at step
      dsimp only at step
      cases hm : Os.mapRing t w.k len with
      | error e => rw [hm] at step; cases step
      | ok x =>
        obtain ⟨k', r⟩ := x
        obtain ⟨es, d, rc⟩ := os_mapRing_did v.wf sane hr hm
        rw [hm] at step
        rcases r with e | p
        · injection step with step
          subst step
          refine ⟨es, d, ?_⟩
          simp only [Op.Makes]
          split at rc
          · rename_i c; rw [if_pos c]; exact ⟨rc.1, fun h => absurd rfl h⟩
          · rename_i c; rw [if_neg c]; exact ⟨rc.1, fun h => absurd rfl h⟩
        · injection step with step
          subst step
          refine ⟨es, d, ?_⟩
          simp only [Op.Makes]
          split at rc
          · rename_i c; rw [if_pos c]; exact ⟨rc.1, fun _ => rc.2 p rfl⟩
          · rename_i c; rw [if_neg c]; exact ⟨rc.1, fun _ => rc.2 p rfl⟩
  | newInf hint =>
    simp only [World.step, InfiniteRing.make, bind, Except.bind] at step
    cases hr : (Size.withSize (Unix.systemInfo w.k).2).round t hint with
    | error e => rw [hr] at step; cases step
    | ok len =>
      rw [hr] at step
      dsimp only at step
      cases hm : Os.mapRing t w.k len with
      | error e => rw [hm] at step; cases step
      | ok x =>
        obtain ⟨k', r⟩ := x
        obtain ⟨es, d, rc⟩ := os_mapRing_did v.wf sane hr hm
        rw [hm] at step
        rcases r with e | p
        · injection step with step
          subst step
          refine ⟨es, d, ?_⟩
          simp only [Op.Makes]
          split at rc
          · rename_i c; rw [if_pos c]; exact ⟨rc.1, fun h => absurd rfl h⟩
          · rename_i c; rw [if_neg c]; exact ⟨rc.1, fun h => absurd rfl h⟩
        · injection step with step
          subst step
          refine ⟨es, d, ?_⟩
          simp only [Op.Makes]
          split at rc
          · rename_i c; rw [if_pos c]; exact ⟨rc.1, fun _ => rc.2 p rfl⟩
          · rename_i c; rw [if_neg c]; exact ⟨rc.1, fun _ => rc.2 p rfl⟩
  | drop i =>
    simp only [World.step] at step
    cases hi : w.held i with
    | none =>
      rw [hi] at step
      injection step with step
      subst step
      exact ⟨[], Did.refl _, by simp only [Op.Makes, hi]⟩
    | some h =>
      rw [hi] at step
      cases h with
      | map m =>
        obtain ⟨p, n, g⟩ := v.live i _ hi
        by_cases h0 : 0 < m.len
        · have hne : m.len ≠ 0 := by omega
          simp only [drop_eq v.wf.page g.pages h0, bind, Except.bind, pure, Except.pure, if_neg hne] at step
          injection step with step
          subst step
          obtain ⟨-, hb, -, -, enc⟩ := range_bounds v.wf g.pages (off := 0) (l := m.len) (by omega)
          rw [Nat.add_zero, whole_bounds v.wf g.pages] at hb
          injection hb with hb
          injection hb with hb1 hb2
          rw [Nat.add_zero, ← hb1, ← hb2] at enc
          refine ⟨[⟨.munmap (p * w.k.page) (n * w.k.page), .ok 0⟩], rfl, ?_⟩
          simp only [Op.Makes, hi, if_neg hne]
          exact OnPages.of enc
        · have hz : m.len = 0 := by omega
          simp only [MapMut.drop, if_neg h0, bind, Except.bind, pure, Except.pure, if_pos hz] at step
          injection step with step
          subst step
          exact ⟨[], rfl, by simp only [Op.Makes, hi, if_pos hz]⟩
      | ring r n =>
        obtain ⟨h1, -⟩ := v.live i _ hi
        obtain ⟨o, s, h5, -⟩ := h1.inv
        simp only [Ring.drop, bind, Except.bind] at step
        cases hu : Os.unmapRing t w.k r.ptr r.len with
        | error e => rw [hu] at step; cases step
        | ok x =>
          rw [hu] at step
          injection step with step
          subst step
          obtain ⟨es, d, he⟩ := os_unmap_did v.wf h5.mirror hu
          exact ⟨es, d, by simp only [Op.Makes, hi]; exact he⟩
      | inf r n =>
        obtain ⟨h1, -⟩ := v.live i _ hi
        obtain ⟨o, s, h5, -⟩ := h1.inv
        simp only [InfiniteRing.drop, bind, Except.bind] at step
        cases hu : Os.unmapRing t w.k r.ptr r.len with
        | error e => rw [hu] at step; cases step
        | ok x =>
          rw [hu] at step
          injection step with step
          subst step
          obtain ⟨es, d, he⟩ := os_unmap_did v.wf h5.mirror hu
          exact ⟨es, d, by simp only [Op.Makes, hi]; exact he⟩
  | flush i off len mode =>
    rcases onMap_cases step with ⟨m, k', a, hi, hf, rfl⟩ | ⟨hn, rfl⟩
    · obtain ⟨p, n, g⟩ := v.live i _ hi
      rw [flushRange_eq] at hf
      obtain ⟨es, d, h⟩ := range_makes v.wf g sane (f := fun a l => .msync a l (mode = .sync))
        (fun P N => (by
          obtain ⟨k', r, h1, h2, -⟩ := flush_fx w.k v.wf.page_pos P N mode
          exact ⟨k', r, h1, h2⟩)) hf
      exact ⟨es, d, by simp only [Op.Makes, hi]; exact h⟩
    · exact ⟨[], Did.refl _, noMap hn rfl⟩
  | advise i off len adv =>
    rcases onMap_cases step with ⟨m, k', a, hi, hf, rfl⟩ | ⟨hn, rfl⟩
    · obtain ⟨p, n, g⟩ := v.live i _ hi
      rw [adviseRange_eq] at hf
      obtain ⟨es, d, h⟩ := range_makes v.wf g sane (f := fun a l => .madvise a l (Unix.adviseBits adv))
        (fun P N => (by
          obtain ⟨k', r, h1, h2, -⟩ := advise_fx w.k v.wf.page_pos P N adv
          exact ⟨k', r, h1, h2⟩)) hf
      refine ⟨es, d, ?_⟩
      simp only [Op.Makes, hi]
      split at h
      · rename_i hin; rw [if_pos hin]; exact ⟨_, h⟩
      · rename_i hin; rw [if_neg hin]; exact h
    · exact ⟨[], Did.refl _, noMap hn rfl⟩
  | lock i off len =>
    rcases onMap_cases step with ⟨m, k', a, hi, hf, rfl⟩ | ⟨hn, rfl⟩
    · obtain ⟨p, n, g⟩ := v.live i _ hi
      rw [lockRange_eq] at hf
      obtain ⟨es, d, h⟩ := range_makes v.wf g sane (f := fun a l => .mlock a l true)
        (fun P N => (by
          obtain ⟨k', r, h1, h2, -⟩ := mlock_fx w.k v.wf.page_pos P N true .lock
          exact ⟨k', r, h1, h2⟩)) hf
      exact ⟨es, d, by simp only [Op.Makes, hi]; exact h⟩
    · exact ⟨[], Did.refl _, noMap hn rfl⟩
  | unlock i off len =>
    rcases onMap_cases step with ⟨m, k', a, hi, hf, rfl⟩ | ⟨hn, rfl⟩
    · obtain ⟨p, n, g⟩ := v.live i _ hi
      rw [unlockRange_eq] at hf
      obtain ⟨es, d, h⟩ := range_makes v.wf g sane (f := fun a l => .mlock a l false)
        (fun P N => (by
          obtain ⟨k', r, h1, h2, -⟩ := mlock_fx w.k v.wf.page_pos P N false .unlock
          exact ⟨k', r, h1, h2⟩)) hf
      exact ⟨es, d, by simp only [Op.Makes, hi]; exact h⟩
    · exact ⟨[], Did.refl _, noMap hn rfl⟩
  | intoMapMut i =>
    rcases onMap_cases step with ⟨m, k', a, hi, hf, rfl⟩ | ⟨hn, rfl⟩
    · obtain ⟨p, n, g⟩ := v.live i _ hi
      obtain ⟨k1, r1, addr, sz, h1, h2, es, d, h⟩ := protect_makes v.wf g
      simp only [Map.intoMapMut, h1, h2, bind, Except.bind] at hf
      have hk : k' = k1 := by
        cases r1 <;> (injection hf with hf; injection hf with hf _; exact hf.symm)
      subst hk
      exact ⟨es, d, by simp only [Op.Makes, hi]; exact ⟨_, h⟩⟩
    · exact ⟨[], Did.refl _, noMap hn rfl⟩
  | intoMap i =>
    rcases onMap_cases step with ⟨m, k', a, hi, hf, rfl⟩ | ⟨hn, rfl⟩
    · obtain ⟨p, n, g⟩ := v.live i _ hi
      obtain ⟨k1, r1, addr, sz, h1, h2, es, d, h⟩ := protect_makes v.wf g
      simp only [MapMut.intoMap, h1, h2, bind, Except.bind] at hf
      have hk : k' = k1 := by
        cases r1 <;> (injection hf with hf; injection hf with hf _; exact hf.symm)
      subst hk
      exact ⟨es, d, by simp only [Op.Makes, hi]; exact ⟨_, h⟩⟩
    · exact ⟨[], Did.refl _, noMap hn rfl⟩
  | set i idx b =>
    rcases onMap_cases step with ⟨m, k', a, hi, hf, rfl⟩ | ⟨hn, rfl⟩
    · simp only [MapMut.set, bind, Except.bind] at hf
      by_cases hlt : idx < m.len
      · rw [if_pos hlt] at hf
        cases hs : w.k.store (m.ptr + idx) b with
        | error e => rw [hs] at hf; cases hf
        | ok k1 =>
          rw [hs] at hf
          injection hf with hf
          injection hf with hf _
          subst hf
          exact ⟨[], store_did hs, rfl⟩
      · rw [if_neg hlt] at hf; cases hf
    · exact ⟨[], Did.refl _, rfl⟩
  | ringOp i op =>
    simp only [World.step] at step
    cases hi : w.held i with
    | none => rw [hi] at step; injection step with step; subst step; exact ⟨[], rfl, rfl⟩
    | some h =>
      rw [hi] at step
      cases h with
      | map m => injection step with step; subst step; exact ⟨[], rfl, rfl⟩
      | inf r n => injection step with step; subst step; exact ⟨[], rfl, rfl⟩
      | ring r n =>
        obtain ⟨h1, -⟩ := v.live i _ hi
        obtain ⟨o, s, a1, a2, a3, a4⟩ := h1.inv
        have hw := a1.writeLen_eq
        have sane := sane r n _ hi hw
        have ht : (s.step op).1.total = passed op n s.spare.length := by
          cases op <;> simp [Win.step, passed, a2]
        obtain ⟨k1, r1, e, -, -, -, sd, -⟩ := ring_step a1 op (by rw [ht]; exact sane)
        simp only [hw, e, bind, Except.bind, pure, Except.pure] at step
        injection step with step
        subst step
        exact ⟨[], sd.log, rfl⟩
  | infOp i op =>
    simp only [World.step] at step
    cases hi : w.held i with
    | none => rw [hi] at step; injection step with step; subst step; exact ⟨[], rfl, rfl⟩
    | some h =>
      rw [hi] at step
      cases h with
      | map m => injection step with step; subst step; exact ⟨[], rfl, rfl⟩
      | ring r n => injection step with step; subst step; exact ⟨[], rfl, rfl⟩
      | inf r n =>
        obtain ⟨h1, -⟩ := v.live i _ hi
        obtain ⟨o, s, a1, a2, a3, a4⟩ := h1.inv
        have hw : r.writeLen t = .ok r.len := rfl
        obtain ⟨s1, s2, s3⟩ := sane r n _ hi hw
        have ht : (s.step op).1.total = passed op n r.len := by
          cases op <;> simp [Lossy.step, passed, a2, ← a1.all_len, Lossy.append]
          exact absurd rfl s1
        obtain ⟨k1, r1, e, -, -, -, sd, -⟩ := inf_step a1 op (by rw [ht]; exact s2) s3
        simp only [hw, e, bind, Except.bind, pure, Except.pure] at step
        injection step with step
        subst step
        exact ⟨[], sd.log, rfl⟩
  | infAll i bs =>
    simp only [World.step] at step
    cases hi : w.held i with
    | none => rw [hi] at step; injection step with step; subst step; exact ⟨[], rfl, rfl⟩
    | some h =>
      rw [hi] at step
      cases h with
      | map m => injection step with step; subst step; exact ⟨[], rfl, rfl⟩
      | ring r n => injection step with step; subst step; exact ⟨[], rfl, rfl⟩
      | inf r n =>
        obtain ⟨h1, -⟩ := v.live i _ hi
        obtain ⟨o, s, a1, a2, a3, a4⟩ := h1.inv
        have sane := sane r n hi
        obtain ⟨k1, r1, e, -, -, -, sd, -⟩ :=
          inf_writeAll a1 bs (by rw [a1.total, a2]; exact sane)
        simp only [e, bind, Except.bind, pure, Except.pure] at step
        injection step with step
        subst step
        exact ⟨[], sd.log, rfl⟩
  | writeBack sel =>
    injection step with step
    subst step
    exact ⟨[], rfl, rfl⟩

/-- C137: calls on a `BufReader` make no system call of their own, whatever the inner reader does and
whatever state the ring is in. -/
theorem C137_reader {σ : Type} (R : Reader σ) {k k' : Kernel} {b b' : BufReader σ} {ops : List RdOp}
    {out : List Byte} (run : b.execAll R t k ops = .ok ((k', b'), out)) : Did k k' [] :=
  (rd_execAll_uses run).did

/-- C137: the same for `BufWriter`. -/
theorem C137_writer {σ : Type} (W : Writer σ) (fuel : Nat) {k k' : Kernel} {b b' : BufWriter σ}
    {ops : List WrOp} {acc : List Byte} (run : b.execAll W t fuel k ops = .ok ((k', b'), acc)) :
    Did k k' [] :=
  (wr_execAll_uses run).did

end

-- a program on the demo kernel: each kind of step that makes system calls, with the calls it makes
example (tab : SysTable) : Wf ⟨.w64, true⟩ (demo 0) ∧
    ∃ w1 w2 w3 w4 : World,
    (World.start (demo 0)).step tab ⟨.w64, true⟩ (.newRing 5000) = .ok w1 ∧ w1.next = 1 ∧
    w1.k.log.length = (demo 0).log.length + 6 ∧
    w1.step tab ⟨.w64, true⟩ (.mapIf ((Options.new.setOffset 5000).setLen (.exact 3000)) 3) = .ok w2 ∧
    w2.next = 2 ∧ w2.k.log.length = w1.k.log.length + 2 ∧
    w2.step tab ⟨.w64, true⟩ (.ringOp 0 (.write [1, 2, 3])) = .ok w3 ∧ w3.k.log = w2.k.log ∧
    w3.step tab ⟨.w64, true⟩ (.drop 0) = .ok w4 ∧ w4.k.log.length = w3.k.log.length + 1 :=
  ⟨demo_wf 0, _, _, _, _, rfl, rfl, rfl, rfl, rfl, rfl, rfl, rfl, rfl, rfl⟩

-- runs of a `BufReader` and a `BufWriter` exist, whatever is inside
example (tab : SysTable) {σ : Type} (R : Reader σ) (W : Writer σ) (s : σ) : Wf ⟨.w64, true⟩ (demo 0) ∧
    ∃ (w : World) (r : Ring) (k1 k2 : Kernel)
    (b1 : BufReader (σ × List ReadEvent)) (b2 : BufWriter (σ × List WriteEvent)) (out acc : List Byte),
    Reach tab ⟨.w64, true⟩ (demo 0) w ∧
    (BufReader.mk r (s, []) 0).execAll R.spy ⟨.w64, true⟩ w.k [.fillBuf, .read [0, 0, 0]] = .ok ((k1, b1), out) ∧
    (BufWriter.mk r (s, []) false).execAll W.spy ⟨.w64, true⟩ 9 w.k [.write [1, 2], .flush] =
      .ok ((k2, b2), acc) := by
  refine ⟨demo_wf 0, ?_⟩
  obtain ⟨w, r, h, -, hr, hl⟩ := demo_world tab
  obtain ⟨g1, g2⟩ := C93_runs (σ := σ) (demo_wf 0) h hr 2
    (by rw [hl]; simp [posBound, Target.lim, Width.bits, lim64])
  obtain ⟨k1, b1, out, e1⟩ := g1 R (BufReader.mk r (s, []) 0) [.fillBuf, .read [0, 0, 0]] rfl rfl
  obtain ⟨k2, b2, acc, e2⟩ := g2 W 9 (BufWriter.mk r (s, []) false) [.write [1, 2], .flush] rfl rfl
  exact ⟨w, r, k1, k2, b1, b2, out, acc, h, e1, e2⟩

end Vmap
