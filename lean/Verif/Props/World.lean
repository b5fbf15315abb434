import Verif.Proofs.WorldStep
import Verif.Props.MapMake
/-
Property theorems C75, C77, C78 and C49: whole programs that use any number of maps and rings.
-/
namespace Vmap
open Kernel Spec

/-! ### C75 -/

/-- C75: in every state that a program can reach, no page belongs to two of the maps and rings it
holds. -/
theorem C75_disjoint {tab : SysTable} {t : Target} {k0 : Kernel} (wf : Wf t k0) {w : World}
    (h : Reach tab t k0 w) {i j : Nat} (hij : i ≠ j) {x y : Handle} (hx : w.held i = some x)
    (hy : w.held j = some y) (q : Nat) :
    ¬ (x.OnPage k0.page q ∧ y.OnPage k0.page q) :=
  fun hq => (h.inv wf).sep i j x y hij hx hy q hq.1 hq.2

/-- C75: every page of everything a program holds is mapped, and was free when the program
started; every page that belongs to nothing the program holds is mapped as it was then
(except the page of an empty map that was dropped, see C40). -/
theorem C75_pages {tab : SysTable} {t : Target} {k0 : Kernel} (wf : Wf t k0) {w : World}
    (h : Reach tab t k0 w) :
    (∀ i x q, w.held i = some x → x.OnPage k0.page q →
      k0.pt q = none ∧ ∃ e, w.k.pt q = some e) ∧
    (∀ q, (∀ i x, w.held i = some x → ¬ x.OnPage k0.page q) →
      (∀ m, m ∈ w.empties → ¬ OnPage k0.page m.ptr m.len q) → w.k.pt q = k0.pt q) := by
  have v := h.inv wf
  refine ⟨fun i x q hx hq => ⟨v.free i x hx q hq, ?_⟩, v.rest⟩
  exact (v.live i x hx).mapped v.wf (by rw [v.page]; exact hq)

/-- The second half of C75 in full: once everything has been dropped, the address space is as it
was before.  False of the code, because of empty maps: `C75_full_false`. -/
def C75_full : Prop :=
  ∀ (tab : SysTable) (t : Target) (k0 : Kernel) (w : World), Wf t k0 → Reach tab t k0 w →
    (∀ i, w.held i = none) → w.k.pt = k0.pt

/-- C75, second half, for programs that drop no empty map.  (Missing: programs that do; the page
of an empty map stays mapped.) -/
theorem C75_all_dropped_partial {tab : SysTable} {t : Target} {k0 : Kernel} (wf : Wf t k0)
    {w : World} (h : Reach tab t k0 w) (hall : ∀ i, w.held i = none) (he : w.empties = []) :
    w.k.pt = k0.pt := by
  funext q
  refine (h.inv wf).rest q (fun i x hx => ?_) (fun m hm => ?_)
  · rw [hall i] at hx; cases hx
  · rw [he] at hm; cases hm

/-- C75, second half, for all programs: once everything has been dropped, a page is mapped that was
not mapped before exactly if it is the page of an empty map that was dropped; every other page is as
before.  No two of those maps share a page, so exactly one page is lost for each. -/
theorem C75_exact {tab : SysTable} {t : Target} {k0 : Kernel} (wf : Wf t k0) {w : World}
    (h : Reach tab t k0 w) (hall : ∀ i, w.held i = none) :
    (∀ m, m ∈ w.empties → m.len = 0) ∧
    (∀ q, q ∈ w.empties.map (fun m => m.ptr / k0.page) →
      k0.pt q = none ∧ ∃ e, w.k.pt q = some e) ∧
    (∀ q, q ∉ w.empties.map (fun m => m.ptr / k0.page) → w.k.pt q = k0.pt q) ∧
    (w.empties.map (fun m => m.ptr / k0.page)).Nodup ∧
    (w.k.pt = k0.pt ↔ w.empties = []) := by
  have v := h.inv wf
  have hu : 0 < k0.page := by have := v.wf.page_pos; rw [v.page] at this; exact this
  have on : ∀ m, m ∈ w.empties → ∀ q, (Handle.map m).OnPage k0.page q ↔ q = m.ptr / k0.page := by
    intro m hm q
    obtain ⟨h1, q0, h2, h3⟩ := v.empty m hm
    simp only [Handle.base, Handle.bytes, h1, Nat.add_zero] at h2 h3
    have e0 : m.ptr / k0.page = q0 := Nat.div_eq_of_lt_le (Nat.le_of_lt h2) h3
    constructor
    · rintro ⟨g2, g3⟩
      simp only [Handle.base, Handle.bytes, h1, Nat.add_zero] at g2 g3
      exact (Nat.div_eq_of_lt_le (Nat.le_of_lt g2) g3).symm
    · intro hq
      rw [hq, e0]
      refine ⟨?_, ?_⟩
      · simpa only [Handle.base, Handle.bytes, h1, Nat.add_zero] using h2
      · simpa only [Handle.base] using h3
  have lost : ∀ q, q ∈ w.empties.map (fun m => m.ptr / k0.page) →
      k0.pt q = none ∧ ∃ e, w.k.pt q = some e := by
    intro q hq
    obtain ⟨m, hm, he⟩ := List.mem_map.mp hq
    have := (on m hm q).mpr he.symm
    exact ⟨v.gone m hm q this, v.kept m hm q this⟩
  refine ⟨fun m hm => (v.empty m hm).1, lost, ?_, ?_, ?_⟩
  · intro q hq
    refine v.rest q (fun i x hx => ?_) (fun m hm hh => ?_)
    · rw [hall i] at hx; cases hx
    · exact hq (List.mem_map.mpr ⟨m, hm, ((on m hm q).mp hh).symm⟩)
  · have := v.once
    have hin : ∀ m, m ∈ w.empties → (Handle.map m).OnPage k0.page (m.ptr / k0.page) :=
      fun m hm => (on m hm _).mpr rfl
    rw [List.nodup_iff_pairwise_ne, List.pairwise_map]
    refine List.Pairwise.imp_of_mem ?_ this
    intro a b ha hb hab he
    exact hab _ (hin a ha) (by rw [he]; exact hin b hb)
  · constructor
    · intro hp
      cases he : w.empties with
      | nil => rfl
      | cons m l =>
        obtain ⟨h1, e, h2⟩ := lost (m.ptr / k0.page) (by rw [he]; exact List.mem_cons_self)
        rw [hp, h1] at h2; cases h2
    · exact C75_all_dropped_partial wf h hall

-- a program that maps nothing beyond the end of a file and drops the map: one page is lost
example (tab : SysTable) : Wf ⟨.w64, true⟩ (demo 0) ∧
    ∃ w : World, Reach tab ⟨.w64, true⟩ (demo 0) w ∧
    (∀ i, w.held i = none) ∧ ∃ m, w.empties = [m] ∧ m.len = 0 := by
  refine ⟨demo_wf 0, ?_⟩
  refine ⟨_, .step (op := .drop 0) (.step (op := .mapIf (Options.new.setOffset 10000) 3)
    .start ?_ rfl) trivial rfl, fun i => ?_, _, rfl, rfl⟩
  · exact ⟨trivial, trivial, show (10000 : Nat) < _ by decide⟩
  · simp only [World.upd]
    by_cases hi : i = 0
    · rw [if_pos hi]
    · rw [if_neg hi]; exact if_neg hi

theorem C75_full_false (tab : SysTable) : ¬ C75_full := by
  intro hall
  apply C40_false tab
  intro tab t k k1 o fd m wf hf hm
  have r1 : Reach tab t k ((World.start k).put k1 (.map m)) :=
    .step (op := .mapIf o fd) .start hf (by
      simp only [World.step, World.start, hm, bind, Except.bind, pure, Except.pure])
  obtain ⟨w2, h2, st⟩ := step_drop tab (r1.inv wf) 0
  have r2 : Reach tab t k w2 := .step (op := .drop 0) r1 trivial h2
  have hd : ∃ k3, m.drop t k1 = .ok k3 := by
    cases hd : m.drop t k1 with
    | ok k3 => exact ⟨k3, rfl⟩
    | error e =>
      simp only [World.step, World.put, World.start, hd, if_true, bind, Except.bind] at h2
      cases h2
  obtain ⟨k3, hd⟩ := hd
  simp only [World.step, World.put, World.start, hd, if_true, bind, Except.bind, pure,
    Except.pure] at h2
  injection h2 with h2
  have hk : w2.k = k3 := by rw [← h2]; rfl
  have := hall tab t k w2 wf r2 (fun i => by
    rw [← h2]
    simp only [World.upd]
    by_cases hi : i = 0
    · rw [if_pos hi]
    · rw [if_neg hi]; exact if_neg hi)
  exact ⟨k3, hd, by rw [← hk]; exact this⟩

/-- C78: no step of a program panics or faults, except possibly a store through a map
(`map[idx] = b`), which has the bounds and the write permission to respect. -/
theorem C78_no_panic {tab : SysTable} {t : Target} {k0 : Kernel} (wf : Wf t k0) {w : World}
    (h : Reach tab t k0 w) {op : Op} (sane : op.Sane t w) (hs : ∀ i idx b, op ≠ .set i idx b) :
    ∃ w', w.step tab t op = .ok w' := by
  obtain ⟨w', h1, -⟩ := step_good tab (h.inv wf) sane hs
  exact ⟨w', h1⟩

/-- C77: a step leaves every handle it does not work on as it is, and the page-table entries of
its pages too. -/
theorem C77_others {tab : SysTable} {t : Target} {k0 : Kernel} (wf : Wf t k0) {w w' : World}
    (h : Reach tab t k0 w) {op : Op} (sane : op.Sane t w) (st : w.step tab t op = .ok w') {j : Nat}
    {x : Handle} (hx : w.held j = some x) (hj : op.target ≠ some j) :
    w'.held j = some x ∧ ∀ q, x.OnPage k0.page q → w'.k.pt q = w.k.pt q := by
  have v := h.inv wf
  have s := step_ok tab v sane st
  obtain ⟨S, fx, hS⟩ := s.fx
  obtain ⟨h1, h2⟩ := hS j x hx hj
  refine ⟨h1, fun q hq => fx.pt q (h2 q ?_)⟩
  rw [v.page]; exact hq

/-- The page of an address inside a handle's memory is a page of the handle. -/
theorem onPage_addr {u base bytes a : Nat} (hu : 0 < u) (h1 : base ≤ a) (h2 : a < base + bytes) :
    OnPage u base bytes (a / u) := by
  have h3 := Nat.div_mul_le_self a u
  have h4 := Nat.lt_div_mul_add hu (a := a)
  refine ⟨by omega, ?_⟩
  rw [Nat.succ_mul]; omega

/-- C77: a step that neither writes nor resizes (allocating, creating a ring, closing, dropping,
flushing, advising, locking, converting) leaves every byte of every handle it does not work
on as it is. -/
theorem C77_bytes {tab : SysTable} {t : Target} {k0 : Kernel} (wf : Wf t k0) {w w' : World}
    (h : Reach tab t k0 w) {op : Op} (sane : op.Sane t w) (st : w.step tab t op = .ok w')
    (hq : op.quiet = true) {j : Nat} {x : Handle} (hx : w.held j = some x)
    (hj : op.target ≠ some j) {a : Nat} (h1 : x.base ≤ a) (h2 : a < x.base + x.bytes) :
    w'.k.load a = w.k.load a := by
  have v := h.inv wf
  have s := step_ok tab v sane st
  have hpt := (C77_others wf h sane st hx hj).2 (a / w.k.page) (by
    rw [← v.page]; exact onPage_addr v.wf.page_pos h1 h2)
  have hpg : w'.k.page = w.k.page := s.inv.page.trans v.page.symm
  have hqt := s.quiet hq
  unfold Kernel.load
  rw [hpg, hpt]
  cases he : w.k.pt (a / w.k.page) with
  | none => rfl
  | some e =>
    obtain ⟨g1, g2⟩ := v.wf.objs _ e he
    have hb : w'.k.backed e = w.k.backed e := by
      simp only [backed, hpg, (hqt e.obj g1).2]
    have hc : w'.k.data (w'.k.cell e (a % w.k.page)).1 (w'.k.cell e (a % w.k.page)).2 =
        w.k.data (w.k.cell e (a % w.k.page)).1 (w.k.cell e (a % w.k.page)).2 := by
      simp only [cell, hpg]
      cases hcp : e.copy with
      | none => simp only []; rw [(hqt e.obj g1).1]
      | some c => simp only []; rw [(hqt c (g2 c hcp)).1]
    simp only [hb, hc]

/-- C77: a step on something else changes a byte of a map only by changing that byte of the file the
map shows, or the file's length.  (Bytes of a private map that have been modified belong to the
map alone.) -/
theorem C77_bytes_files {tab : SysTable} {t : Target} {k0 : Kernel} (wf : Wf t k0) {w w' : World}
    (h : Reach tab t k0 w) {op : Op} (sane : op.Sane t w) (st : w.step tab t op = .ok w')
    {j : Nat} {x : Handle} (hx : w.held j = some x) (hj : op.target ≠ some j) {a : Nat}
    (h1 : x.base ≤ a) (h2 : a < x.base + x.bytes) {e : Pte}
    (he : w.k.pt (a / w.k.page) = some e) (hsize : w'.k.size e.obj = w.k.size e.obj)
    (hdata : e.copy = none → w'.k.data e.obj (e.idx * w.k.page + a % w.k.page) =
      w.k.data e.obj (e.idx * w.k.page + a % w.k.page)) : w'.k.load a = w.k.load a := by
  have v := h.inv wf
  have s := step_ok tab v sane st
  have hon : x.OnPage w.k.page (a / w.k.page) := onPage_addr v.wf.page_pos h1 h2
  have hpt := (C77_others wf h sane st hx hj).2 (a / w.k.page) (by rw [← v.page]; exact hon)
  have hpg : w'.k.page = w.k.page := s.inv.page.trans v.page.symm
  have hb : w'.k.backed e = w.k.backed e := by simp only [backed, hpg, hsize]
  have hc : w'.k.data (w'.k.cell e (a % w.k.page)).1 (w'.k.cell e (a % w.k.page)).2 =
      w.k.data (w.k.cell e (a % w.k.page)).1 (w.k.cell e (a % w.k.page)).2 := by
    simp only [cell, hpg]
    cases hcp : e.copy with
    | none => exact hdata hcp
    | some c =>
      obtain ⟨S, fx, hS⟩ := s.fx
      obtain ⟨-, hS⟩ := hS j x hx hj
      obtain ⟨x1, x2, x3⟩ := v.wf.excl _ e c he hcp
      have hid : Hid w.k S anyFd c := by
        refine ⟨(v.wf.objs _ e he).2 c hcp, fun d f _ => x2 d f, fun s hs => x3 s c hs rfl, ?_⟩
        intro q e' hq he'
        refine ⟨(x1 q e' he').1, fun hc => ?_⟩
        rw [(x1 q e' he').2 hc] at hq
        exact hS _ hon hq
      simp only []
      rw [(fx.hid anyFd c (fun _ _ => trivial) hid).1]
  unfold Kernel.load
  rw [hpg, hpt, he]
  simp only [hb, hc]

/-- The memory behind handle `x` is its own: no descriptor, no file name and no page outside `x` leads
to it. -/
def Spec.Own (k : Kernel) (x : Handle) : Prop :=
  ∀ q e, x.OnPage k.page q → k.pt q = some e →
    (∀ d f, k.fds d = some f → f.obj ≠ e.obj) ∧ (∀ s, k.names s ≠ some e.obj) ∧
    ∀ q' e', k.pt q' = some e' → e'.obj = e.obj → x.OnPage k.page q'

/-- C77: memory that is a handle's own stays so and keeps its bytes through every step on something
else, whatever the step writes. -/
theorem C77_own {tab : SysTable} {t : Target} {k0 : Kernel} (wf : Wf t k0) {w w' : World}
    (h : Reach tab t k0 w) {op : Op} (sane : op.Sane t w) (st : w.step tab t op = .ok w')
    {j : Nat} {x : Handle} (hx : w.held j = some x) (hj : op.target ≠ some j) (own : Own w.k x) :
    Own w'.k x ∧ ∀ a, x.base ≤ a → a < x.base + x.bytes → w'.k.load a = w.k.load a := by
  have v := h.inv wf
  have s := step_ok tab v sane st
  obtain ⟨S, fx, hS⟩ := s.fx
  obtain ⟨-, hS⟩ := hS j x hx hj
  have hpg : w'.k.page = w.k.page := fx.page
  have hid : ∀ q e, x.OnPage w.k.page q → w.k.pt q = some e → Hid w.k S anyFd e.obj := by
    intro q e hq he
    obtain ⟨o1, o2, o3⟩ := own q e hq he
    refine ⟨(v.wf.objs q e he).1, fun d f _ => o1 d f, o2, ?_⟩
    intro q' e' hq' he'
    refine ⟨fun hc => hS q' (o3 q' e' he' hc) hq', fun hc => ?_⟩
    exact ((v.wf.excl q' e' e.obj he' hc).1 q e he).1 rfl
  refine ⟨?_, ?_⟩
  · intro q e hq he
    rw [hpg] at hq
    rw [fx.pt q (hS q hq)] at he
    have hh := (fx.hid anyFd e.obj (fun _ _ => trivial) (hid q e hq he)).2.2
    refine ⟨fun d f => hh.fds d f trivial, hh.names, ?_⟩
    intro q' e' he' hoo
    rw [hpg]
    by_cases hs : S q'
    · exact absurd hoo (hh.pages q' e' hs he').1
    · rw [fx.pt q' hs] at he'
      exact (own q e hq he).2.2 q' e' he' hoo
  · intro a h1 h2
    have hon : x.OnPage w.k.page (a / w.k.page) := onPage_addr v.wf.page_pos h1 h2
    obtain ⟨e, he⟩ := (v.live j x hx).mapped v.wf hon
    have hh := fx.hid anyFd e.obj (fun _ _ => trivial) (hid _ e hon he)
    exact C77_bytes_files wf h sane st hx hj h1 h2 he hh.2.1 (fun _ => by rw [hh.1])

/-- C77: newly allocated memory is the map's own. -/
theorem C77_alloc_own {tab : SysTable} {t : Target} {k0 : Kernel} (wf : Wf t k0) {w : World}
    (h : Reach tab t k0 w) {o : Options} (sane : (Op.alloc o).Sane t w) {k' : Kernel} {m : MapMut}
    (ha : o.alloc t w.k = .ok (k', .ok m)) : Own k' (.map m) := by
  have v := h.inv wf
  obtain ⟨len, -, hc, -⟩ := alloc_cases v.wf o sane
  rcases hc with ⟨e, he⟩ | ⟨p, k1, -, -, -, -, hk, wf', c, he⟩
  · rw [ha] at he
    injection he with he
    injection he with h1 h2
    cases h2
  · rw [ha] at he
    injection he with he
    injection he with h1 h2
    injection h2 with h2
    subst h1
    subst h2
    have hpg : k'.page = w.k.page := by rw [hk]; rfl
    have hfd : k'.fds = w.k.fds := by rw [hk]; rfl
    have hnm : k'.names = w.k.names := by rw [hk]; rfl
    intro q e hq he
    rw [hpg] at hq
    obtain ⟨a, b⟩ := (onPage_iff c.pages q).mp hq
    obtain ⟨e1, g1, -, -, g2, -⟩ := c.mapped q a b
    rw [he] at g1
    injection g1 with g1
    subst g1
    rw [g2]
    refine ⟨fun d f hd => ?_, fun s hs => ?_, fun q' e' he' hoo => ?_⟩
    · rw [hfd] at hd
      have := (v.wf.fds d f hd).1
      omega
    · rw [hnm] at hs
      have := v.wf.names s _ hs
      omega
    · rw [hpg]
      apply Classical.byContradiction
      intro hn
      rw [c.others q' (fun hh => hn ((onPage_iff c.pages q').mpr hh))] at he'
      have := (v.wf.objs q' e' he').1
      omega

/-- Non-vacuity: an allocation that meets the hypotheses of `C77_alloc_own`. -/
example : (∃ k' m, (Options.new.write.setLen (.exact 5000)).alloc ⟨.w64, true⟩ (demo 0) =
    .ok (k', .ok m)) ∧
    (Op.alloc (Options.new.write.setLen (.exact 5000))).Sane ⟨.w64, true⟩ (World.start (demo 0)) := by
  have sane : (Op.alloc (Options.new.write.setLen (.exact 5000))).Sane ⟨.w64, true⟩
    (World.start (demo 0)) := by show (0 + 5000 : Nat) < _; decide
  obtain ⟨len, hl, -, h⟩ := alloc_cases (demo_wf 0) (Options.new.write.setLen (.exact 5000)) sane
  cases hl
  exact ⟨h (by decide) (by decide) ⟨by decide, by decide, by decide, fun q _ _ => rfl⟩, sane⟩

/-- C77 for rings: every ring a program holds is in a state that C08–C18 speak about — whatever
else the program does with maps, files and other rings is "other activity" to it — and its
memory changes only by calls on the ring itself. -/
theorem C77_rings {tab : SysTable} {t : Target} {k0 : Kernel} (wf : Wf t k0) {w : World}
    (h : Reach tab t k0 w) {j : Nat} :
    (∀ r n, w.held j = some (.ring r n) → RingAt t w.k r n) ∧
    (∀ r n, w.held j = some (.inf r n) → InfAt t w.k r n) ∧
    (∀ x op w', w.held j = some x → (∀ m, x ≠ .map m) → op.Sane t w →
      w.step tab t op = .ok w' → op.target ≠ some j →
      ∀ a, x.base ≤ a → a < x.base + x.bytes → ∃ b, w.k.load a = .ok b ∧ w'.k.load a = .ok b) := by
  have v := h.inv wf
  refine ⟨fun r n hr => (v.live j _ hr).1, fun r n hr => (v.live j _ hr).1, ?_⟩
  intro x op w' hx hm sane st hj a h1 h2
  have s := step_ok tab v sane st
  obtain ⟨S, fx, hS⟩ := s.fx
  obtain ⟨-, hS⟩ := hS j x hx hj
  have key : ∀ ptr len o, x.base = ptr → x.bytes = 2 * len → w.k.Mirror t ptr len o →
      Owned w.k ptr len o → Closed w.k ptr len →
      ∃ b, w.k.load a = .ok b ∧ w'.k.load a = .ok b := by
    intro ptr len o hb hl m ow cl
    obtain ⟨ap, -⟩ := fx.apart v.wf s.inv.wf m ow cl (by
      intro q a b
      refine hS q ?_
      simp only [Handle.OnPage, hb, hl]
      exact (onPage_ring v.wf.page_pos m.ptr_dvd q).mpr ⟨a, b⟩)
    obtain ⟨m', d⟩ := m.apart v.wf ap
    rw [hb] at h1
    rw [hb, hl] at h2
    have e1 := (m.shows' (a - ptr) (by omega)).load
    have e2 := (m'.shows' (a - ptr) (by omega)).load
    rw [show ptr + (a - ptr) = a by omega] at e1 e2
    rw [d] at e2
    exact ⟨_, e1, e2⟩
  cases x with
  | map m => exact absurd rfl (hm m)
  | ring r n =>
    obtain ⟨l1, l2⟩ := v.live j _ hx
    obtain ⟨o, s', a1, -, a3, -⟩ := l1.inv
    exact key r.ptr r.len o rfl rfl a1.mirror a3 l2
  | inf r n =>
    obtain ⟨l1, l2⟩ := v.live j _ hx
    obtain ⟨o, s', a1, -, a3, -⟩ := l1.inv
    exact key r.ptr r.len o rfl rfl a1.mirror a3 l2

/-- Non-vacuity: on the demo kernel a program maps part of the file, creates a ring, writes to
it, and drops the map. -/
example (tab : SysTable) : Wf ⟨.w64, true⟩ (demo 0) ∧
    ∃ w : World, Reach tab ⟨.w64, true⟩ (demo 0) w ∧ w.held 0 = none ∧
    (∃ r, w.held 1 = some (.ring r 3) ∧ r.len = 4096) ∧ w.empties = [] := by
  refine ⟨demo_wf 0, ?_⟩
  have step : ∀ {w w' : World} {op : Op}, Reach tab ⟨.w64, true⟩ (demo 0) w →
      op.Sane ⟨.w64, true⟩ w → w.step tab ⟨.w64, true⟩ op = .ok w' →
      Reach tab ⟨.w64, true⟩ (demo 0) w' := fun a b c => .step a b c
  refine ⟨_, step (op := .drop 0) (step (op := .ringOp 1 (.write [1, 2, 3])) (step (op := .newRing 10)
    (step (op := .mapIf ((Options.new.setOffset 5000).setLen (.exact 3000)) 3) .start ?_ rfl)
    ?_ rfl) ?_ rfl) trivial rfl, rfl, ⟨_, rfl, rfl⟩, rfl⟩
  · exact ⟨trivial, show (3000 : Nat) < _ by decide, show (5000 : Nat) < _ by decide⟩
  · exact ⟨by show (10 + 4096 : Nat) < _; decide, fun h => by cases h⟩
  · intro r n l hr hl
    cases hr
    cases hl
    show min 3 4096 < posBound ⟨.w64, true⟩ 4096
    simp [posBound, Target.lim, Width.bits, lim64]

/-! ### C49 -/

/-- C49: `flush_range` with `Flush::Sync` has returned `Ok` on a map that shows file `o` shared.
Then the program (and the rest of the system) goes on in any way, and the power fails at any
point.  If byte `j` of the flushed range was not modified in between, the file still has it. -/
theorem C49_durable {tab : SysTable} {t : Target} {k0 : Kernel} (wf : Wf t k0) {w : World}
    (h : Reach tab t k0 w) {i : Nat} {m : MapMut} (hm : w.held i = some (.map m))
    {o fo mw prot} (shows' : w.k.MapsAll m.ptr m.len o fo true mw prot) {off len : Nat}
    {k' : Kernel} (hl : off + len < t.lim)
    (hf : m.flushRange t w.k off len .sync = .ok (k', .ok ())) {j : Nat} (h1 : off ≤ j)
    (h2 : j < off + len) {w2 : World}
    (later : Later tab t (fun k => k.data o (fo + j) = w.k.data o (fo + j)) (w.run k') w2) :
    w2.k.crash.data o (fo + j) = w.k.data o (fo + j) ∧
      (prot.r = true → m.get w.k j = .ok (w2.k.crash.data o (fo + j))) := by
  have v := h.inv wf
  obtain ⟨p, n, g⟩ := v.live i _ hm
  have hin : off + len ≤ m.len := by
    apply Decidable.byContradiction
    intro hn
    rw [flushRange_eq, rangeOp_out (by omega) hl] at hf
    cases hf
  have hj : j < m.len := by omega
  obtain ⟨e, e1, e2, e3, e4, -⟩ := shows' j hj
  have ho : o < w.k.fresh := by rw [← e2]; exact (v.wf.objs _ e e1).1
  have hpp := v.wf.page_pos
  -- the flush itself
  have hdisk : k'.disk o (fo + j) = w.k.data o (fo + j) ∧ k'.data = w.k.data ∧
      k'.fresh = w.k.fresh := by
    rw [flushRange_eq, rangeOp_in v.wf g.pages hin] at hf
    obtain ⟨k1, r, f1, -, f2, -, -, f3⟩ := flush_fx w.k hpp (pg w.k (m.ptr + off))
      (npg w.k (m.ptr + off) len) .sync
    rw [f1] at hf
    injection hf with hf
    injection hf with hf1 hf2
    subst hf1 hf2
    refine ⟨f3 rfl rfl o (fo + j) ?_, f2.data, f2.fresh⟩
    refine ⟨(m.ptr + j) / w.k.page, e, ?_, ?_, e1, e4, e2, ?_⟩
    · exact Nat.div_le_div_right (by omega)
    · obtain ⟨-, -, -, -, enc⟩ := range_bounds v.wf g.pages hin
      have := enc.upper
      rw [← Nat.add_mul] at this
      exact (Nat.div_lt_iff_lt_mul hpp).mpr (by omega)
    · rw [← e3, Nat.add_comm, Nat.add_mul_div_right _ _ hpp,
        Nat.div_eq_of_lt (Nat.mod_lt _ hpp), Nat.zero_add]
  -- afterwards
  have hinv : (w.run k').Inv t k0 := by
    have st : w.step tab t (.flush i off len .sync) = .ok (w.run k') := by
      simp only [World.step, World.onMap, hm, hf, bind, Except.bind, pure, Except.pure]
    exact (step_ok tab v (op := .flush i off len .sync) hl st).inv
  have main : w2.Inv t k0 ∧ o < w2.k.fresh ∧ w2.k.disk o (fo + j) = w.k.data o (fo + j) ∧
      w2.k.data o (fo + j) = w.k.data o (fo + j) := by
    clear hf
    induction later with
    | refl =>
      exact ⟨hinv, by show o < k'.fresh; rw [hdisk.2.2]; exact ho, hdisk.1,
        by show k'.data _ _ = _; rw [hdisk.2.1]⟩
    | step before sane st keeps ih =>
      obtain ⟨i1, i2, i3, i4⟩ := ih
      have s := step_ok tab i1 sane st
      obtain ⟨S, fx, -⟩ := s.fx
      refine ⟨s.inv, Nat.lt_of_lt_of_le i2 fx.fresh, ?_, keeps⟩
      rcases fx.disk o (fo + j) i2 with hd | hd
      · rw [hd, i3]
      · rw [hd, i4]
  have hcr : w2.k.crash.data o (fo + j) = w.k.data o (fo + j) := main.2.2.1
  refine ⟨hcr, fun hr => ?_⟩
  rw [hcr]
  exact C33_stays v.wf shows' hr hj

/-- An error table for the example below. -/
def demoTab : SysTable := ⟨fun _ => .other 0, fun _ => ""⟩

/-- The state after a step (for the example below). -/
def World.next! (w : World) (op : Op) : World :=
  match w.step demoTab ⟨.w64, true⟩ op with
  | .ok w => w
  | .error _ => w

theorem World.next!_eq {w : World} {op : Op}
    (h : (w.step demoTab ⟨.w64, true⟩ op).isOk = true) :
    w.step demoTab ⟨.w64, true⟩ op = .ok (w.next! op) := by
  unfold World.next!
  cases hs : w.step demoTab ⟨.w64, true⟩ op with
  | ok w' => rfl
  | error e => rw [hs] at h; cases h

/-- An example state: the program has mapped the demo file writable and stored a byte. -/
def demoWorld : World :=
  ((World.start (demo 0)).next! (.mapIf Options.new.write 3)).next! (.set 0 5001 77)

theorem demoWorld_reach : Reach demoTab ⟨.w64, true⟩ (demo 0) demoWorld := by
  have fits : Fits ⟨.w64, true⟩ Options.new.write := ⟨trivial, trivial, by decide⟩
  exact .step (op := .set 0 5001 77)
    (.step (op := .mapIf Options.new.write 3) .start fits (World.next!_eq (by decide +kernel)))
    trivial (World.next!_eq (by decide +kernel))

theorem demoWorld_maps :
    demoWorld.k.MapsAll 8192000 10000 0 0 true true ⟨true, true, false⟩ := by
  intro j hj
  have key : ∀ q, q = 0 ∨ q = 1 ∨ q = 2 → ∃ e, demoWorld.k.pt (2000 + q) = some e ∧
      e.obj = 0 ∧ e.idx = q ∧ e.shared = true ∧ e.mayWrite = true ∧ e.prot = ⟨true, true, false⟩ := by
    intro q hq
    rcases hq with rfl | rfl | rfl <;> exact ⟨_, rfl, rfl, rfl, rfl, rfl, rfl⟩
  obtain ⟨e, h1, h2, h3, h4, h5, h6⟩ := key (j / 4096) (by omega)
  have hpg : demoWorld.k.page = 4096 := rfl
  have hq : (8192000 + j) / 4096 = 2000 + j / 4096 := by omega
  have hb : demoWorld.k.backed e = true := by
    have hs : demoWorld.k.size 0 = 10000 := rfl
    simp only [backed, hpg, h2, hs, h3, decide_eq_true_eq]
    omega
  refine ⟨e, ?_, h2, ?_, h4, h5, h6, hb⟩
  · rw [hpg, hq]; exact h1
  · rw [hpg, h3]; omega

/-- Non-vacuity: in the example state the synchronous flush of two bytes succeeds.  The program then
allocates memory, stores to another byte, and closes the file.  After the crash the flushed byte is
on storage and the other one is not. -/
example : Wf ⟨.w64, true⟩ (demo 0) ∧
    ∃ (m : MapMut) (k' : Kernel) (w2 : World),
    Reach demoTab ⟨.w64, true⟩ (demo 0) demoWorld ∧ demoWorld.held 0 = some (.map m) ∧
    demoWorld.k.MapsAll m.ptr m.len 0 0 true true ⟨true, true, false⟩ ∧
    m.flushRange ⟨.w64, true⟩ demoWorld.k 5000 2 .sync = .ok (k', .ok ()) ∧
    Later demoTab ⟨.w64, true⟩ (fun k => k.data 0 (0 + 5001) = demoWorld.k.data 0 (0 + 5001))
      (demoWorld.run k') w2 ∧
    demoWorld.k.data 0 5001 = 77 ∧ w2.k.crash.data 0 5001 = 77 ∧ w2.k.data 0 5 = 88 ∧
    w2.k.crash.data 0 5 = 0 := by
  refine ⟨demo_wf 0, ?_⟩
  let w1 := demoWorld.next! (.flush 0 5000 2 .sync)
  have hf : (⟨8192000, 10000⟩ : MapMut).flushRange ⟨.w64, true⟩ demoWorld.k 5000 2 .sync =
      .ok (w1.k, .ok ()) := by
    have hok : (match (⟨8192000, 10000⟩ : MapMut).flushRange ⟨.w64, true⟩ demoWorld.k 5000 2 .sync with
      | .ok (_, .ok _) => true
      | _ => false) = true := by decide +kernel
    have h0 : demoWorld.held 0 = some (.map ⟨8192000, 10000⟩) := rfl
    show _ = Except.ok ((demoWorld.next! (.flush 0 5000 2 .sync)).k, _)
    simp only [World.next!, World.step, World.onMap, h0]
    revert hok
    cases MapMut.flushRange ⟨.w64, true⟩ demoWorld.k ⟨8192000, 10000⟩ 5000 2 .sync with
    | error e => intro h; cases h
    | ok x =>
      obtain ⟨k1, r⟩ := x
      cases r with
      | error e => intro h; cases h
      | ok u => intro _; rfl
  refine ⟨⟨8192000, 10000⟩, w1.k, ((w1.next! (.alloc (Options.new.setLen (.exact 10)))).next!
    (.set 0 5 88)).next! (.close 3), demoWorld_reach, rfl, demoWorld_maps, hf,
    .step (op := .close 3) (.step (op := .set 0 5 88)
      (.step (op := .alloc (Options.new.setLen (.exact 10))) .refl ?_ (World.next!_eq ?_) ?_)
      trivial (World.next!_eq ?_) ?_) trivial (World.next!_eq ?_) ?_, ?_, ?_, ?_, ?_⟩
  · show (0 + 10 : Nat) < _; decide
  all_goals decide +kernel

/-- Non-vacuity of `C77_others` and `C77_bytes`: in the example state, an allocation is a quiet step
that does not work on the map, and byte 5001 of the map is there to be kept. -/
example : Reach demoTab ⟨.w64, true⟩ (demo 0) demoWorld ∧
    Op.Sane ⟨.w64, true⟩ demoWorld (.alloc (Options.new.setLen (.exact 10))) ∧
    demoWorld.step demoTab ⟨.w64, true⟩ (.alloc (Options.new.setLen (.exact 10))) =
      .ok (demoWorld.next! (.alloc (Options.new.setLen (.exact 10)))) ∧
    (Op.alloc (Options.new.setLen (.exact 10))).quiet = true ∧
    (Op.alloc (Options.new.setLen (.exact 10))).target ≠ some 0 ∧
    demoWorld.held 0 = some (.map ⟨8192000, 10000⟩) ∧ demoWorld.k.load (8192000 + 5001) = .ok 77 :=
  ⟨demoWorld_reach, by show (0 + 10 : Nat) < _; decide, World.next!_eq (by decide +kernel), rfl,
    fun h => (by cases h), rfl, by decide +kernel⟩

/-- C49 for `flush`: it is `flush_range` of the whole map. -/
theorem C49_durable_flush {tab : SysTable} {t : Target} {k0 : Kernel} (wf : Wf t k0) {w : World}
    (h : Reach tab t k0 w) {i : Nat} {m : MapMut} (hm : w.held i = some (.map m))
    {o fo mw prot} (shows' : w.k.MapsAll m.ptr m.len o fo true mw prot) {k' : Kernel}
    (hf : m.flush t w.k .sync = .ok (k', .ok ())) {j : Nat} (hj : j < m.len) {w2 : World}
    (later : Later tab t (fun k => k.data o (fo + j) = w.k.data o (fo + j)) (w.run k') w2) :
    w2.k.crash.data o (fo + j) = w.k.data o (fo + j) := by
  obtain ⟨p, n, g⟩ := (h.inv wf).live i _ hm
  rw [(whole_range (h.inv wf).wf g.pages).1] at hf
  have top := g.pages.top
  exact (C49_durable wf h hm shows' (by omega) hf (Nat.zero_le _) (by omega) later).1

end Vmap
